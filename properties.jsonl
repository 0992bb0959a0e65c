{"id": "C01", "title": "Factor built from a network reads the network's CPT", "statement": "For every node rv of a well-formed BayesNet, Factor(bn, rv) succeeds, and its entry addressed by sum(value_index*stride) for a joint value assignment of rv and its parents is exactly P(rv | parents) as laid out in bn.cpt(rv) (child value fastest, then first parent, then second, ...); distinct assignments address distinct entries and every entry is addressed.", "quantifier": "every well-formed network, every node, every number of parents and cardinalities, every assignment", "why_tests_cant": "the index arithmetic must be a bijection for all shapes; tests see a few 2-valued tables", "anchors": ["pyBN/classes/factor.py:Factor.__init__", "pyBN/classes/factor.py:Factor.value_indices", "pyBN/classes/bayesnet.py:BayesNet.scope", "pyBN/classes/bayesnet.py:BayesNet.card"]}
{"id": "C02", "title": "Factor multiplication is the pointwise product", "statement": "For any two well-formed factors over the same network, f*g does not raise and its entry at every joint assignment of the union of the scopes is f's entry times g's entry at that assignment; its scope is the union of the scopes.", "quantifier": "all pairs of factors (either operand larger, overlapping, nested or disjoint scopes), all cardinalities including 1, every iteration order of Python sets/dicts, all assignments", "why_tests_cant": "depends on hash iteration order and mixed-radix carry at unbounded sizes", "anchors": ["pyBN/classes/factor.py:Factor.multiply_factor", "pyBN/classes/factor.py:Factor.__mul__"]}
{"id": "C03", "title": "Factor product is commutative and associative as a function", "statement": "f*g and g*f denote the same function of assignments, and (f*g)*h and f*(g*h) denote the same function, whatever internal layout each produces.", "quantifier": "all triples of well-formed factors, all hash orders, all assignments", "why_tests_cant": "layouts differ between the two sides and depend on hash order", "anchors": ["pyBN/classes/factor.py:Factor.multiply_factor"]}
{"id": "C04", "title": "sumout_var marginalises", "statement": "f.sumout_var(x) for x in scope does not raise; x leaves the scope and the new entry at every assignment of the remaining variables is the sum over all values of x of the old entries.", "quantifier": "all well-formed factors, all positions of x in the layout, all cardinalities, all assignments", "why_tests_cant": "the running index k with block jumps must be right for every stride/cardinality combination", "anchors": ["pyBN/classes/factor.py:Factor.sumout_var", "pyBN/classes/factor.py:Factor.__div__"]}
{"id": "C05", "title": "maxout_var maximises over the removed variable", "statement": "f.maxout_var(x) does not raise, removes x from the scope, and the new entry at every remaining assignment is the maximum over all values of x of the old entries, and is attained.", "quantifier": "all well-formed factors with non-negative entries (probability tables); all x, all assignments", "why_tests_cant": "max over unbounded cardinality and all layouts; the initial accumulator 0 only works for non-negative tables", "anchors": ["pyBN/classes/factor.py:Factor.maxout_var", "pyBN/classes/factor.py:Factor.__floordiv__"]}
{"id": "C06", "title": "reduce_factor restricts to the evidence", "statement": "f.reduce_factor(x, val) with x in scope and val one of its values does not raise or loop; x leaves the scope and the new entry at every remaining assignment is the old entry at that assignment extended by x=val.", "quantifier": "all well-formed factors, all x, all values, all assignments", "why_tests_cant": "while-loop block copy must be right and terminate for every stride/cardinality", "anchors": ["pyBN/classes/factor.py:Factor.reduce_factor", "pyBN/classes/factor.py:Factor.__sub__"]}
{"id": "C07", "title": "sumover_var equals summing out everything else", "statement": "f.sumover_var(x) yields the 1-D table whose i-th entry is the sum of all entries of f in which x takes its i-th value, i.e. the same table as summing out every other scope variable.", "quantifier": "all well-formed factors, all x", "why_tests_cant": "block sums over unbounded table lengths", "anchors": ["pyBN/classes/factor.py:Factor.sumover_var", "pyBN/classes/factor.py:Factor.sumout_var_list"]}
{"id": "C08", "title": "Elimination and evidence order does not matter", "statement": "Summing out (or reducing by) a collection of distinct variables gives the same function whatever the order of the collection; in particular whatever the iteration order of an evidence dict.", "quantifier": "all factors, all duplicate-free lists of scope variables, all permutations", "why_tests_cant": "permutations of unbounded lists; dict order is hash dependent", "anchors": ["pyBN/classes/factor.py:Factor.sumout_var_list", "pyBN/classes/factor.py:Factor.reduce_factor_by_list"]}
{"id": "C09", "title": "normalize makes each conditional block sum to one", "statement": "After f.normalize() on a non-negative factor, each consecutive block of the variable of stride one sums to exactly one (in exact arithmetic), all entries are positive, and the ratio of two entries of a block is the ratio of the perturbed originals.", "quantifier": "all well-formed non-negative factors", "why_tests_cant": "must hold for every table, including all-zero blocks", "anchors": ["pyBN/classes/factor.py:Factor.normalize", "pyBN/classes/factor.py:Factor.perturb"]}
{"id": "C10", "title": "Factors stay well formed under any history of operations", "statement": "Starting from factors of a well-formed network, no sequence of multiply / sumout / maxout / reduce on in-scope variables ever raises, and the result's table length is the product of the cardinalities of its scope with a valid stride layout.", "quantifier": "all finite operation histories, all hash orders", "why_tests_cant": "unbounded histories", "anchors": ["pyBN/classes/factor.py:Factor"]}
{"id": "C11", "title": "Multiplying leaves the right-hand operand intact", "statement": "f *= g changes only f; g can be used afterwards exactly as before.", "quantifier": "all pairs of factors", "why_tests_cant": "aliasing of the card dictionary only shows when the right operand has the larger scope and is used again", "anchors": ["pyBN/classes/factor.py:Factor.multiply_factor"]}
{"id": "C12", "title": "One sum-product elimination preserves the marginal", "statement": "Eliminating rv from a factorization (multiply all factors mentioning rv, sum rv out) leaves a factorization whose product equals the sum over rv's values of the previous product, and no remaining factor mentions rv.", "quantifier": "all lists of well-formed factors, all rv mentioned by at least one of them, all hash orders", "why_tests_cant": "unbounded numbers of factors", "anchors": ["pyBN/classes/factorization.py:Factorization.sum_product_eliminate_var"]}
{"id": "C13", "title": "marginal_ve_e computes the exact joint marginal", "statement": "Whenever marginal_ve_e(bn, target, evidence) returns, its i-th entry is, to the documented 4-digit rounding, the sum of the network's joint probability over all complete assignments with target = its i-th value that agree with the evidence - independent of node order and hash order.", "quantifier": "all well-formed networks, targets, evidence dictionaries, orders", "why_tests_cant": "exponentially many assignments and orders", "anchors": ["pyBN/inference/marginal_exact/ve_marginal.py:marginal_ve_e", "pyBN/classes/factorization.py"]}
{"id": "C14", "title": "marginal_ve_e returns a conditional distribution", "statement": "The array returned by marginal_ve_e is the conditional distribution of target given the evidence: non-negative and summing to one (before rounding).", "quantifier": "all normalised acyclic networks, targets, evidence", "why_tests_cant": "must hold for every network; the normalisation step is commented out so it holds only without evidence", "anchors": ["pyBN/inference/marginal_exact/ve_marginal.py:marginal_ve_e", "pyBN/classes/factorization.py:Factorization.consolidate"]}
{"id": "C15", "title": "marginal_ve_e answers every valid query", "statement": "marginal_ve_e never raises on a well-formed network with a target node and evidence over other nodes with legal values.", "quantifier": "all well-formed networks and valid queries", "why_tests_cant": "depends on how many factors survive elimination", "anchors": ["pyBN/inference/marginal_exact/ve_marginal.py:marginal_ve_e", "pyBN/classes/factorization.py:Factorization.consolidate"]}
{"id": "C16", "title": "ve_map returns a most probable explanation", "statement": "ve_map(bn, evidence) does not raise, returns a complete assignment agreeing with the evidence, and no complete assignment agreeing with the evidence has larger joint probability.", "quantifier": "all well-formed networks with non-negative tables, all valid evidence, all node and hash orders", "why_tests_cant": "maximisation over exponentially many assignments; traceback must undo elimination in the right order", "anchors": ["pyBN/inference/map_exact/ve_map.py:ve_map", "pyBN/classes/factorization.py:Factorization.max_product_eliminate_var", "pyBN/classes/factorization.py:Factorization.traceback_map"]}
{"id": "C17", "title": "ve_map prob is the maximum joint probability", "statement": "When ve_map(..., prob=True) returns, the reported number is (to 5 digits) the maximum joint probability of the assignments agreeing with the evidence, i.e. the joint probability of the reported assignment.", "quantifier": "all well-formed non-negative networks and evidence", "why_tests_cant": "as C16", "anchors": ["pyBN/inference/map_exact/ve_map.py:ve_map", "pyBN/classes/factorization.py:Factorization.consolidate"]}
{"id": "C18", "title": "cpt_indices returns exactly the consistent CPT rows", "statement": "bn.cpt_indices(target, val_dict) returns, without duplicates, exactly the positions of bn.cpt(target) whose decoded assignment agrees with val_dict; for a complete assignment of the family it is the single position of P(target | parents).", "quantifier": "all well-formed networks, targets, partial assignments of the family", "why_tests_cant": "index sets over unbounded shapes", "anchors": ["pyBN/classes/bayesnet.py:BayesNet.cpt_indices", "pyBN/classes/bayesnet.py:BayesNet.stride"]}
{"id": "C19", "title": "bn.stride agrees with the factor stride", "statement": "bn.stride(rv, n) equals Factor(bn, rv).stride[n] for every n in the scope of rv.", "quantifier": "all well-formed networks, all rv, all n in the scope", "why_tests_cant": "two independent computations for all shapes", "anchors": ["pyBN/classes/bayesnet.py:BayesNet.stride", "pyBN/classes/factor.py:Factor.__init__"]}
{"id": "C20", "title": "Counting queries are consistent", "statement": "num_edges() is the length of list(edges()); (u,v) is in edges() iff has_edge(u,v); num_params() is len(flat_cpt()); flat_cpt() is the concatenation of the CPTs in node order; and the degrees of all nodes sum to twice the number of edges.", "quantifier": "all structurally consistent networks", "why_tests_cant": "all sizes", "anchors": ["pyBN/classes/bayesnet.py:BayesNet.edges", "pyBN/classes/bayesnet.py:BayesNet.num_edges", "pyBN/classes/bayesnet.py:BayesNet.num_params", "pyBN/classes/bayesnet.py:BayesNet.flat_cpt", "pyBN/classes/bayesnet.py:BayesNet.degree"]}
{"id": "C21", "title": "moralized_edges is the moral graph", "statement": "As an undirected graph, moralized_edges() contains {a,b} exactly when a is a parent of b, b a parent of a, or a and b are distinct parents of a common child; no co-parent link is listed in both directions unless it is itself an arc.", "quantifier": "all networks whose node list is duplicate-free", "why_tests_cant": "all graph shapes", "anchors": ["pyBN/classes/bayesnet.py:BayesNet.moralized_edges"]}
{"id": "C22", "title": "Children and parents stay consistent under edits", "statement": "After any sequence of add_edge / remove_edge / reverse_arc, v is listed among the children of u iff u is listed among the parents of v.", "quantifier": "all edit histories", "why_tests_cant": "unbounded histories; object sharing", "anchors": ["pyBN/classes/bayesnet.py:BayesNet.add_node", "pyBN/classes/bayesnet.py:BayesNet.add_edge", "pyBN/classes/bayesnet.py:BayesNet.remove_edge", "pyBN/classes/bayesnet.py:BayesNet.reverse_arc"]}
{"id": "C23", "title": "set_structure derives parents from children", "statement": "BayesNet(E, value_dict) for an acyclic edge dict E: every key of E is a node exactly once, children are E's lists, parents(v) lists exactly the u with v in E[u], in node order, and values come from value_dict.", "quantifier": "all acyclic edge dictionaries, all hash orders", "why_tests_cant": "all graphs", "anchors": ["pyBN/classes/bayesnet.py:BayesNet.set_structure", "pyBN/utils/graph.py:topsort"]}
{"id": "C24", "title": "copy() is equal and independent", "statement": "bn.copy() has the same nodes, edges, parents, values and tables, and no later edit of the copy's lists is visible in the original or vice versa.", "quantifier": "all networks, all later edits", "why_tests_cant": "aliasing over all histories", "anchors": ["pyBN/classes/bayesnet.py:BayesNet.copy"]}
{"id": "C25", "title": "== is a usable structural equality", "statement": "bn == bn2 never raises and is True exactly when the two networks have the same nodes and the same undirected neighbours.", "quantifier": "all pairs of networks", "why_tests_cant": "the failing branch is reached for every pair with equal non-empty node sets", "anchors": ["pyBN/classes/bayesnet.py:BayesNet.__eq__", "pyBN/utils/class_equivalence.py:are_class_equivalent"]}
{"id": "C26", "title": "topsort visits every node exactly once", "statement": "For an acyclic edge dict (children all keys) topsort terminates, does not raise and returns every key exactly once, whatever the dict order; with an explicit root it returns exactly the nodes reachable from root.", "quantifier": "all finite acyclic graphs, all hash orders", "why_tests_cant": "all graphs; termination", "anchors": ["pyBN/utils/graph.py:topsort", "pyBN/utils/graph.py:dfs_postorder"]}
{"id": "C27", "title": "topsort is a topological order", "statement": "In topsort's result every parent precedes its children.", "quantifier": "all finite acyclic graphs", "why_tests_cant": "breadth-first order is topological for some shapes only", "anchors": ["pyBN/utils/graph.py:topsort"]}
{"id": "C28", "title": "would_cause_cycle decides cyclicity of the edited graph", "statement": "For an acyclic graph, would_cause_cycle(e,u,v) is True exactly when adding u->v (after removing v->u if reverse=True) creates a directed cycle.", "quantifier": "all finite acyclic graphs, all arcs", "why_tests_cant": "all graphs", "anchors": ["pyBN/utils/graph.py:would_cause_cycle"]}
{"id": "C29", "title": "mst returns a spanning tree of the reachable part", "statement": "mst(edge_dict) terminates without raising; its edges are input edges, node 0 has no incoming edge, each other node at most one, all nodes reachable from 0 in the input are reachable from 0 in the result.", "quantifier": "all weighted graphs", "why_tests_cant": "all graphs", "anchors": ["pyBN/utils/graph.py:mst"]}
{"id": "C30", "title": "Hill climbing always returns a DAG", "statement": "The network returned by hc has no directed cycle, whatever the data, metric, restriction, debug flag and iteration limit.", "quantifier": "all data sets (all score outcomes), all parameters", "why_tests_cant": "all search trajectories", "anchors": ["pyBN/learning/structure/score/hill_climbing.py:hc", "pyBN/utils/graph.py:would_cause_cycle"]}
{"id": "C31", "title": "Hill climbing stops and respects the restriction list", "statement": "hc runs at most max_iter+1 passes and, when a restriction list is given, every arc of the result is in it.", "quantifier": "all data sets, all parameters", "why_tests_cant": "all trajectories", "anchors": ["pyBN/learning/structure/score/hill_climbing.py:hc"]}
{"id": "C32", "title": "A reported improving move is really made", "statement": "Whenever hc finds a best move with a positive delta it performs that move on the structure.", "quantifier": "all data sets, debug on or off", "why_tests_cant": "depends on which operator wins", "anchors": ["pyBN/learning/structure/score/hill_climbing.py:hc"]}
{"id": "C33", "title": "Tabu search never undoes a recent move", "statement": "In tabu, an arc added (deleted) in one of the last k moves is not deleted (re-added), a reversal is not reversed back, and no k makes it raise.", "quantifier": "all data sets, all k, all trajectories", "why_tests_cant": "all trajectories", "anchors": ["pyBN/learning/structure/score/tabu.py:tabu"]}
{"id": "C34", "title": "Random-restart search returns a DAG and respects the restriction", "statement": "hc_rr terminates and returns an acyclic network whose arcs are all in the restriction list when one is given.", "quantifier": "all data sets, all random draws", "why_tests_cant": "all random histories", "anchors": ["pyBN/learning/structure/score/random_restarts.py:hc_rr"]}
{"id": "C35", "title": "mle_estimator counts parent-child configurations", "statement": "mle_estimator(bn, data, counts=True) returns, for every node and every CPT position, the number of data rows whose values match the configuration of that position.", "quantifier": "all structures, all integer data sets", "why_tests_cant": "all data sets and shapes", "anchors": ["pyBN/learning/parameter/mle.py:mle_estimator"]}
{"id": "C36", "title": "Learned CPT rows are distributions", "statement": "After mle_estimator / bayes_estimator each conditional block of each CPT is non-negative and sums to one up to the documented rounding (and smoothing constant).", "quantifier": "all structures and data sets", "why_tests_cant": "all data sets, including unobserved parent configurations", "anchors": ["pyBN/learning/parameter/mle.py:mle_estimator", "pyBN/learning/parameter/bayes.py:bayes_estimator"]}
{"id": "C37", "title": "forward_sample returns relative frequencies", "statement": "For n>=1 forward_sample returns for every node a table over exactly its values with entries in [0,1] that sum to one, whatever the random draws.", "quantifier": "all networks in parent-before-child order, all n, all random outcomes", "why_tests_cant": "all random histories", "anchors": ["pyBN/inference/marginal_approx/forward_sample.py:forward_sample"]}
{"id": "C38", "title": "A forward sample is distributed as the network's joint", "statement": "The probability that one pass of forward_sample draws a given complete assignment equals the product of the CPT entries of that assignment.", "quantifier": "all networks in parent-before-child order, all assignments", "why_tests_cant": "a distributional statement over all random outcomes", "anchors": ["pyBN/inference/marginal_approx/forward_sample.py:forward_sample", "pyBN/utils/random_sample.py:random_sample"]}
{"id": "C39", "title": "Likelihood weighting is consistent with the evidence and unbiased", "statement": "In lw_sample every evidence node gets estimated probability one for its observed value and zero for the others, each node's estimates sum to one, and the expected weight of an assignment agreeing with the evidence is its joint probability.", "quantifier": "all networks, evidence, n, random outcomes with non-zero total weight", "why_tests_cant": "all random histories", "anchors": ["pyBN/inference/marginal_approx/lw_sample.py:lw_sample"]}
{"id": "C40", "title": "gibbs_sample returns relative frequencies", "statement": "For n > burn the estimates of gibbs_sample for each node sum to one (before rounding).", "quantifier": "all networks, n, burn, random outcomes", "why_tests_cant": "all random histories; off-by-one in the number of retained samples", "anchors": ["pyBN/inference/marginal_approx/gibbs_sample.py:gibbs_sample"]}
{"id": "C41", "title": "Structural distances count differing arcs and form a metric", "statement": "For networks on the same node set missing_edges(x,y) is the number of arcs of x absent from y, extra_edges(x,y)=missing_edges(y,x), and hamming is zero exactly for equal structures, symmetric, and satisfies the triangle inequality.", "quantifier": "all triples of structures", "why_tests_cant": "all graphs", "anchors": ["pyBN/utils/structure_distance.py"]}
{"id": "C42", "title": "incorrect_direction_edges counts reversed arcs", "statement": "incorrect_direction_edges(x,y) is the number of arcs of x that appear reversed in y.", "quantifier": "all pairs of structures on the same nodes", "why_tests_cant": "all graphs", "anchors": ["pyBN/utils/structure_distance.py:incorrect_direction_edges"]}
{"id": "C43", "title": "markov_blanket lists parents, children and spouses", "statement": "y is in markov_blanket(bn)[x] iff y is a parent of x, a child of x or another parent of one of x's children; the relation is symmetric; and the call does not change bn.", "quantifier": "all structurally consistent networks", "why_tests_cant": "all graphs", "anchors": ["pyBN/utils/markov_blanket.py:markov_blanket"]}
{"id": "C44", "title": "Writing then reading a .bn file preserves the network", "statement": "read_bn(write_bn(bn)) has the same edges, parents, values and tables, and its node list is a topsort of the edges.", "quantifier": "all networks with string names", "why_tests_cant": "all networks", "anchors": ["pyBN/io/read.py:read_json", "pyBN/io/write.py:write_json"]}
{"id": "C45", "title": "replace_strings is a reversible encoding", "statement": "The integer table returned by replace_strings decodes through the returned value_dict to the original data, codes of a column are 0..k-1, and code order is value order.", "quantifier": "all data sets", "why_tests_cant": "all data sets, including columns with ten or more distinct values", "anchors": ["pyBN/utils/data.py:replace_strings"]}
{"id": "C46", "title": "discretize maps into 1..bins monotonically", "statement": "Every entry of a discretized column is between 1 and the requested number of bins, and larger inputs never get smaller bins; other columns are unchanged.", "quantifier": "all data sets, bins and column choices", "why_tests_cant": "all reals", "anchors": ["pyBN/utils/discretize.py:discretize"]}
{"id": "C47", "title": "Markov-blanket resolution yields an undirected graph", "statement": "resolve_markov_blanket returns a neighbour dictionary that is symmetric and duplicate-free, linking only pairs one of which is in the other's blanket, whatever the independence tests say.", "quantifier": "all blanket dictionaries, all test outcomes", "why_tests_cant": "all data", "anchors": ["pyBN/utils/markov_blanket.py:resolve_markov_blanket"]}
{"id": "C48", "title": "grow-shrink blanket search terminates", "statement": "The blanket computation of gs terminates for every data set and its result contains only variables dependent on the target given the rest.", "quantifier": "all data sets (all test outcomes)", "why_tests_cant": "non-termination for some outcomes", "anchors": ["pyBN/learning/structure/constraint/grow_shrink.py:gs"]}
{"id": "C49", "title": "PC keeps a symmetric skeleton and terminates", "statement": "pc terminates without raising for every outcome of the independence tests, keeps the neighbour lists symmetric, and every arc of the result is a skeleton edge.", "quantifier": "all test outcomes, all numbers of variables", "why_tests_cant": "all data; list mutation during iteration", "anchors": ["pyBN/learning/structure/constraint/path_condition.py:pc", "pyBN/utils/orient_edges.py:orient_edges_CS"]}
{"id": "C50", "title": "chow_liu builds a spanning tree", "statement": "The edge-selection loop of chow_liu connects every variable by a directed tree rooted at the first endpoint of the heaviest pair, each other variable having exactly one parent.", "quantifier": "all weight functions, all numbers of variables", "why_tests_cant": "all data", "anchors": ["pyBN/learning/structure/tree/chow_liu.py:chow_liu"]}
{"id": "C51", "title": "Entries of marginal_ve_e sum to the evidence probability", "statement": "Whenever marginal_ve_e(bn, target, evidence) returns, the (unrounded) entries are non-negative and sum to the probability of the evidence, so dividing by their sum gives the conditional distribution.", "quantifier": "all networks with non-negative tables, all targets, all evidence dicts, all hash orders", "why_tests_cant": "needs an equality of nested sums over every assignment of every network", "anchors": ["pyBN/inference/marginal_exact/ve_marginal.py:marginal_ve_e"]}
{"id": "C52", "title": "Exactly which marginal queries are answered", "statement": "A legal marginal_ve_e query returns if and only if every two node families are connected by a chain of families sharing variables that are neither the target nor observed; every other legal query raises NameError (in particular any query with evidence on a parentless node).", "quantifier": "all well-formed networks, targets, legal evidence, hash orders", "why_tests_cant": "connectivity over unbounded networks; both directions of an equivalence", "anchors": ["pyBN/classes/factorization.py:Factorization.consolidate", "pyBN/inference/marginal_exact/ve_marginal.py:marginal_ve_e"]}
{"id": "C53", "title": "Exactly when ve_map reports a probability", "statement": "ve_map(..., prob=True) with legal evidence on a non-empty network returns if and only if every two node families are connected by a chain of families sharing unobserved variables; otherwise it raises NameError although the assignment itself was computed.", "quantifier": "all well-formed networks with non-negative tables, legal evidence, hash orders", "why_tests_cant": "connectivity over unbounded networks; both directions of an equivalence", "anchors": ["pyBN/classes/factorization.py:Factorization.consolidate", "pyBN/inference/map_exact/ve_map.py:ve_map"]}
{"id": "C54", "title": "topsort is breadth-first: some parent comes first", "statement": "In the result of topsort(edge_dict) every returned node that has a parent in the graph is preceded by at least one of its parents (although, see C27, not necessarily by all of them).", "quantifier": "all edge dicts whose children are keys, all dict orders", "why_tests_cant": "arbitrary graphs and hash orders; the loop mutates its queue", "anchors": ["pyBN/utils/graph.py:topsort"]}
{"id": "C55", "title": "flat_cpt(by_parents=True) lists the row sums", "statement": "bn.flat_cpt(by_parents=True) contains, in node order, one number per parent configuration: the sum of that configuration's row.", "quantifier": "all well-formed networks", "why_tests_cant": "table shapes are unbounded; single-row tables hide the overlap of the windows", "anchors": ["pyBN/classes/bayesnet.py:BayesNet.flat_cpt"]}
{"id": "C56", "title": "cpt_indices with an unknown value selects the last value's rows", "statement": "If val_dict gives a variable a value it does not have, cpt_indices neither raises nor returns nothing: it returns exactly the rows in which that variable takes its last value.", "quantifier": "all well-formed networks, targets, val_dicts over the family, hash orders", "why_tests_cant": "depends on arithmetic of negative indices for every shape", "anchors": ["pyBN/classes/bayesnet.py:BayesNet.cpt_indices", "pyBN/classes/bayesnet.py:BayesNet.value_idx"]}
{"id": "C57", "title": "add_edge from an unknown node raises but leaves the node behind", "statement": "bn.add_edge(u, v) with u not a node raises KeyError, yet u has been added to the nodes without an entry for its children, so every later edges() / num_edges() raises KeyError.", "quantifier": "all networks, all u not in the network, all v", "why_tests_cant": "all networks; partial effects before an exception", "anchors": ["pyBN/classes/bayesnet.py:BayesNet.add_edge", "pyBN/classes/bayesnet.py:BayesNet.add_node"]}
{"id": "C58", "title": "cpt_str_idx names the configuration of a position", "statement": "bn.cpt_str_idx(rv, idx) names the value of rv and, in parent order, one parent=value pair per parent: the configuration whose probability is at position idx of bn.cpt(rv).", "quantifier": "all well-formed networks, nodes and positions, hash orders", "why_tests_cant": "mixed-radix decoding over unbounded shapes", "anchors": ["pyBN/classes/bayesnet.py:BayesNet.cpt_str_idx"]}
{"id": "C59", "title": "adj_list lists the positions of the children", "statement": "bn.adj_list() has one entry per node; entry i lists, in order, the positions of the children of the i-th node.", "quantifier": "all well-formed networks", "why_tests_cant": "all structures", "anchors": ["pyBN/classes/bayesnet.py:BayesNet.adj_list"]}
{"id": "C60", "title": "New nodes reached by add_edge share one parent list", "statement": "If add_edge(p, x) and add_edge(q, y) each create their target, both targets end up with the same parents (including both p and q), although x is not a child of q: the default parents list of add_node is one object, shared by all such nodes of all networks.", "quantifier": "all consistent networks whose lists are separate objects, all p, q, x, y", "why_tests_cant": "aliasing through a default argument is only visible across calls; all networks and all earlier uses of the default list", "anchors": ["pyBN/classes/bayesnet.py:BayesNet.add_node", "pyBN/classes/bayesnet.py:BayesNet.add_edge"]}
{"id": "C61", "title": "Without debug, choosing a reversal freezes hill climbing", "statement": "With debug=False, once a pass of hc chooses a reversal as best move, every later pass chooses the same move again, all max_iter+1 passes are spent, and the returned structure is the one that pass started from.", "quantifier": "all data sets, restrictions and iteration limits", "why_tests_cant": "depends on which operator wins in an arbitrary pass of an arbitrary trajectory", "anchors": ["pyBN/learning/structure/score/hill_climbing.py:hc"]}
{"id": "C62", "title": "Hill climbing ends in a local optimum or at the limit", "statement": "When hc returns, either max_iter+1 passes were made or no legal (acyclic, allowed) single addition, deletion or reversal has a positive score difference.", "quantifier": "all data sets, all parameters", "why_tests_cant": "all trajectories and all candidate moves", "anchors": ["pyBN/learning/structure/score/hill_climbing.py:hc"]}
{"id": "C63", "title": "The tabu window is five passes whatever k is", "statement": "Every k >= 5 gives the same run of tabu; a k < 5 gives that run too unless a performed addition or deletion (with debug=True also a reversal; otherwise reversals are not remembered) falls in a pass whose number is k or more modulo 5, in which case IndexError is raised.", "quantifier": "all data sets, all k, all iteration limits", "why_tests_cant": "compares runs for unboundedly many k and trajectories", "anchors": ["pyBN/learning/structure/score/tabu.py:tabu"]}
{"id": "C64", "title": "hc_rr without restarts is hc", "statement": "With R <= 0 hc_rr returns exactly what hc returns on the same data and parameters.", "quantifier": "all data sets, parameters and random draws", "why_tests_cant": "all trajectories", "anchors": ["pyBN/learning/structure/score/random_restarts.py:hc_rr", "pyBN/learning/structure/score/hill_climbing.py:hc"]}
{"id": "C65", "title": "What mle_estimator counts when nodes are not in column order", "statement": "For any order of the nodes, mle_estimator(counts=True) takes the values of a node from the column at the node's position in the node list and its observations from the column named by the node; an observation that is not among the values is counted under the last value; every entry is the exact number of rows counted that way.", "quantifier": "all structures, all node orders, all rectangular integer data sets, all hash orders", "why_tests_cant": "all orders and data sets", "anchors": ["pyBN/learning/parameter/mle.py:mle_estimator"]}
{"id": "C66", "title": "mle_estimator learns relative frequencies", "statement": "For nodes listed at the positions of columns having the same distinct entries as their own columns (e.g. nodes 0, 1, 2, ... in order, or all columns binary) and parents listed in node order, after mle_estimator the structure is unchanged, the values are the distinct column entries in increasing order, and P(v=x|pa) is count(v=x,pa)/(count(pa)+1e-7) rounded to five decimals.", "quantifier": "all structures and data sets meeting the ordering condition", "why_tests_cant": "all structures and data sets", "anchors": ["pyBN/learning/parameter/mle.py:mle_estimator"]}
{"id": "C67", "title": "bayes_estimator learns smoothed relative frequencies", "statement": "For nodes listed at the positions of columns having the same distinct entries as their own columns and a positive equivalent sample size E (default: number of rows), after bayes_estimator P(v=x|pa) is (E/K + count(v=x,pa)) / (card(v) E/K + count(pa)) rounded to five decimals, K being the table size; structure and parent lists are unchanged.", "quantifier": "all structures and data sets, all positive equivalent sample sizes", "why_tests_cant": "all structures, data sets and prior weights", "anchors": ["pyBN/learning/parameter/bayes.py:bayes_estimator"]}
{"id": "C68", "title": "gibbs_sample divides by one sweep too many", "statement": "For 0 <= burn < n the number gibbs_sample(bn, n, burn) returns for a value is the number of sweeps t with burn < t < n that ended with it, divided by n-burn and rounded to four digits; so a node's estimates sum to (n-burn-1)/(n-burn) before rounding, and n = burn raises ZeroDivisionError.", "quantifier": "all networks, n, burn, random outcomes", "why_tests_cant": "The off-by-one hides behind rounding for large n; it must be derived for every n, burn and every sequence of random numbers.", "anchors": ["pyBN/inference/marginal_approx/gibbs_sample.py:gibbs_sample"]}
{"id": "C69", "title": "gibbs_sample is forward sampling in disguise", "statement": "gibbs_sample never consults the children of a node: on a network listed parents first its estimates are those forward_sample computes from the random numbers left after the initial state and the first burn+1 sweeps, scaled by (n-burn-1)/(n-burn) and rounded.", "quantifier": "all networks in parent-before-child order, n, burn, random outcomes", "why_tests_cant": "Equality of two samplers for every random sequence cannot be sampled.", "anchors": ["pyBN/inference/marginal_approx/gibbs_sample.py:gibbs_sample", "pyBN/inference/marginal_approx/forward_sample.py:forward_sample"]}
{"id": "C70", "title": "forward_sample raises on a node listed before its parent", "statement": "If some node is listed before one of its parents in bn.nodes(), forward_sample(bn, n) with n >= 1 raises KeyError, whatever the random numbers (such orders come out of topsort).", "quantifier": "all networks not in parent-before-child order, all random outcomes", "why_tests_cant": "It must fail for every such order and every random sequence, not just on samples.", "anchors": ["pyBN/inference/marginal_approx/forward_sample.py:forward_sample", "pyBN/utils/graph.py:topsort"]}
{"id": "C71", "title": "random_sample does not depend on uninitialised memory", "statement": "On a network listed parents first random_sample(bn, n) returns n rows that depend only on the random numbers, not on the content of the np.empty array it fills, each row holding the legal value indices of the assignment forward_sample draws in the same pass.", "quantifier": "all networks in parent-before-child order, all n, array contents, random outcomes", "why_tests_cant": "Uninitialised memory cannot be enumerated by tests.", "anchors": ["pyBN/utils/random_sample.py:random_sample"]}
{"id": "C72", "title": "lw_sample without evidence is forward_sample", "statement": "With empty evidence lw_sample returns what forward_sample returns for the same random numbers, rounded to four digits, and raises whatever it raises.", "quantifier": "all networks, n >= 1, all random outcomes", "why_tests_cant": "Equality for all random sequences.", "anchors": ["pyBN/inference/marginal_approx/lw_sample.py:lw_sample"]}
{"id": "C73", "title": "Sampling does not renormalise tables", "statement": "If the table of the first node (a root) does not sum to one within numpy's tolerance, forward_sample raises ValueError; mle_estimator produces such tables by rounding to five digits (three observations of three values give 0.33333 three times).", "quantifier": "all networks, tolerances, n >= 1, random outcomes", "why_tests_cant": "It holds for every tolerance below the rounding error and every random sequence.", "anchors": ["pyBN/inference/marginal_approx/forward_sample.py:forward_sample", "pyBN/learning/parameter/mle.py:mle_estimator"]}
{"id": "C74", "title": "Structural distances on different node sets double-count and raise", "statement": "For any two structurally consistent networks missing_edges(x,y) is the number of arcs of x absent from y plus the number of arcs of x whose head is not a node of y, extra_edges is the same with x and y exchanged, and incorrect_direction_edges and hamming raise KeyError exactly when some node that has children in x is not a node of y.", "quantifier": "all pairs of structurally consistent networks, any node sets", "why_tests_cant": "all pairs of graphs", "anchors": ["pyBN/utils/structure_distance.py:missing_edges", "pyBN/utils/structure_distance.py:extra_edges", "pyBN/utils/structure_distance.py:hamming"]}
{"id": "C75", "title": "incorrect_direction_edges is constantly zero; a reversed arc costs two", "statement": "On a common node set incorrect_direction_edges returns 0 whatever the structures, and hamming is the size of the symmetric difference of the arc sets.", "quantifier": "all pairs of structurally consistent networks on the same nodes", "why_tests_cant": "all pairs of graphs", "anchors": ["pyBN/utils/structure_distance.py:incorrect_direction_edges", "pyBN/utils/structure_distance.py:hamming"]}
{"id": "C76", "title": "What BayesNet(E) keeps of a cyclic edge dictionary", "statement": "BayesNet(E, value_dict) on any edge dictionary whose children are keys succeeds; its nodes are exactly the keys reachable from a key without parents, all others are silently dropped while E is kept whole, and the recorded parents of a node are its parents among the nodes.", "quantifier": "all edge dictionaries closed under children, cyclic or not; all hash orders", "why_tests_cant": "all graphs", "anchors": ["pyBN/classes/bayesnet.py:BayesNet.set_structure", "pyBN/utils/graph.py:topsort"]}
{"id": "C77", "title": "Exactly which pairs resolve_markov_blanket links", "statement": "A pair is linked iff, seen from one of its two variables, the other is in its blanket and no test on a PROPER subset of the candidate set (the smaller blanket without the other variable) found independence; the whole candidate set is never tested.", "quantifier": "all blankets, all test outcomes", "why_tests_cant": "all test outcomes", "anchors": ["pyBN/utils/markov_blanket.py:resolve_markov_blanket"]}
{"id": "C78", "title": "The grow-shrink blanket search, exactly", "statement": "Growing scans the columns in order, again and again until a scan adds nothing, and ends within n+1 passes with a duplicate-free list S of other variables, each dependent given those before it, no further variable being dependent given S. If each member is dependent given the others the blanket is S, otherwise the search never ends.", "quantifier": "all test outcomes, all numbers of variables", "why_tests_cant": "non-termination", "anchors": ["pyBN/learning/structure/constraint/grow_shrink.py:gs"]}
{"id": "C79", "title": "gs on mutually dependent variables returns a network without nodes", "statement": "When every test finds dependence, gs on two or more variables keeps every edge in both directions and the returned network has no node.", "quantifier": "all n >= 2, all hash orders", "why_tests_cant": "all numbers of variables", "anchors": ["pyBN/learning/structure/constraint/grow_shrink.py:gs", "pyBN/utils/orient_edges.py:orient_edges_MB"]}
{"id": "C80", "title": "orient_edges_MB directs every edge exactly once", "statement": "For every undirected graph and all test outcomes, orient_edges_MB returns a dictionary that contains each input edge in exactly one direction and nothing else.", "quantifier": "all graphs, blankets, test outcomes, hash orders", "why_tests_cant": "all test outcomes; list mutation during iteration", "anchors": ["pyBN/utils/orient_edges.py:orient_edges_MB"]}
{"id": "C81", "title": "pc never uses marginal independence", "statement": "The network returned by pc does not depend on the outcomes of tests with an empty conditioning set, and an edge is dropped only because of a test with a non-empty one.", "quantifier": "all test outcomes, numbers of variables, hash orders", "why_tests_cant": "relates all pairs of runs", "anchors": ["pyBN/learning/structure/constraint/path_condition.py:pc"]}
{"id": "C82", "title": "Where the arcs of pc come from", "statement": "Every arc of pc's network belongs to three variables two of which are not adjacent in the skeleton; hence the network is edgeless on all n variables when n <= 2 or when no conditional test finds independence.", "quantifier": "all test outcomes, numbers of variables, hash orders", "why_tests_cant": "all test outcomes", "anchors": ["pyBN/learning/structure/constraint/path_condition.py:pc", "pyBN/utils/orient_edges.py:orient_edges_CS"]}
{"id": "C83", "title": "pc returns an acyclic network over all variables", "statement": "For all test outcomes the network returned by pc has every variable as a node and no directed cycle.", "quantifier": "all test outcomes, numbers of variables", "why_tests_cant": "all test outcomes", "anchors": ["pyBN/learning/structure/constraint/path_condition.py:pc", "pyBN/utils/orient_edges.py:orient_edges_CS"]}
{"id": "C84", "title": "The Chow-Liu tree has maximum weight", "statement": "The total weight of the tree selected by chow_liu is at least that of every spanning tree.", "quantifier": "all weights, all n >= 2", "why_tests_cant": "all weights", "anchors": ["pyBN/learning/structure/tree/chow_liu.py:chow_liu"]}
{"id": "C85", "title": "Integer-named networks cannot be read back", "statement": "After write_bn of a network whose variables are integers (what the learning functions return) and that has at least one edge, read_bn raises KeyError: JSON turns the dict keys into strings while the edge targets stay integers.", "quantifier": "all integer-named networks with an edge, all hash orders", "why_tests_cant": "all networks", "anchors": ["pyBN/io/read.py:read_json", "pyBN/io/write.py:write_json"]}
{"id": "C86", "title": "A crash during write_bn leaves a file that reads as an empty network", "statement": "Whatever state short of completion an interrupted write_bn leaves the file in, the previous contents are lost and read_bn returns a network without nodes, edges or tables instead of raising.", "quantifier": "all networks, all crash points (at token granularity), all hash orders", "why_tests_cant": "all crash points", "anchors": ["pyBN/io/read.py:read_json", "pyBN/io/write.py:write_json"]}
{"id": "C87", "title": "What replace_strings does to an array of fixed-width strings", "statement": "In an array of strings of width w an entry decodes to itself through the returned value_dict exactly if fewer than 10^w distinct values of its column are smaller; its code is the leading w digits of that number.", "quantifier": "all widths, data sets and entries", "why_tests_cant": "all data sets", "anchors": ["pyBN/utils/data.py:replace_strings"]}
{"id": "C88", "title": "Exact result of discretize", "statement": "An entry x of a selected non-constant column gets floor((x-min)(k-1)/(max-min))+1, so that the maximum alone is in bin k; a constant column becomes constantly k; unselected columns are truncated towards zero; bin counts are indexed by column number and too short a list raises IndexError.", "quantifier": "all rational data sets with non-empty columns, all selections and bin lists", "why_tests_cant": "all data sets", "anchors": ["pyBN/utils/discretize.py:discretize"]}
{"id": "C89", "title": "Independence test is symmetric", "statement": "mi_test and are_independent return the same result when the rows of the data are permuted and when the two tested columns are exchanged, with any number of conditioning columns.", "quantifier": "all data sets, all numbers of conditioning columns, all row permutations", "why_tests_cant": "all data sets and permutations", "anchors": ["pyBN/utils/independence_tests.py:mi_test", "pyBN/utils/independence_tests.py:are_independent"]}
{"id": "C90", "title": "mi_test(test=False) is the smoothed empirical mutual information", "statement": "For two columns coded 0,1,..., mi_test(data, test=False) is within half of 1e-4 of the empirical mutual information smoothed by 1e-7, is never negative, is 0 for empirically independent columns, and exceeds neither the unsmoothed mutual information nor the entropy of the first column by more than the rounding; the smoothed value is 0 exactly for empirically independent columns.", "quantifier": "all non-empty two-column data sets with contiguous codes", "why_tests_cant": "real-valued function of all data sets", "anchors": ["pyBN/utils/independence_tests.py:mi_test"]}
{"id": "C91", "title": "Independent columns get a large p-value", "statement": "For empirically independent columns mi_test returns a p-value that is not below the significance level.", "quantifier": "all empirically independent data sets", "why_tests_cant": "all data sets and cardinalities", "anchors": ["pyBN/utils/independence_tests.py:mi_test"]}
{"id": "C92", "title": "Exact p-value of independent columns", "statement": "For empirically independent coded columns the returned value is nan, inf, 1 or 0 for 0, 1, 2 or at least 3 degrees of freedom: twice the chi-square density at 0 rather than a tail probability.", "quantifier": "all empirically independent two-column data sets", "why_tests_cant": "all data sets and cardinalities", "anchors": ["pyBN/utils/independence_tests.py:mi_test"]}
{"id": "C93", "title": "p-values are probabilities", "statement": "mi_test returns a number between 0 and 1.", "quantifier": "all data sets, any number of conditioning columns", "why_tests_cant": "real-valued function of all data sets", "anchors": ["pyBN/utils/independence_tests.py:mi_test"]}
{"id": "C94", "title": "Second binary conditioner is ignored", "statement": "With two binary conditioning columns, the first one not constant, the mutual information computed by mi_test equals that with the first conditioning column alone.", "quantifier": "all data sets with two binary conditioning columns", "why_tests_cant": "all data sets", "anchors": ["pyBN/utils/independence_tests.py:mi_test"]}
{"id": "C95", "title": "Joining conditioning columns loses no information", "statement": "Rows with different values of the conditioning columns get different joined codes.", "quantifier": "all data sets and numbers of conditioning columns", "why_tests_cant": "all data sets", "anchors": ["pyBN/utils/independence_tests.py:mi_test", "pyBN/utils/independence_tests.py:mutual_information"]}
{"id": "C96", "title": "are_independent answers True exactly below the level", "statement": "are_independent returns True exactly if mi_test's value is below alpha (the reverse of the usual decision); for empirically independent coded columns the answer is True exactly with three or more degrees of freedom.", "quantifier": "all data sets, all alpha", "why_tests_cant": "all data sets and levels", "anchors": ["pyBN/utils/independence_tests.py:are_independent"]}
{"id": "C97", "title": "Conditional mutual information of binary data is always 0", "statement": "mutual_information(data, conditional=True) on non-empty 0/1 data with three columns is 0.0 if every column contains a 1 and raises ValueError otherwise.", "quantifier": "all 0/1 data sets with three columns", "why_tests_cant": "all data sets", "anchors": ["pyBN/utils/independence_tests.py:mutual_information"]}
{"id": "C98", "title": "Only the first parent counts in the score", "statement": "mutual_information of a variable with any number of parents, as used by the hill-climbing scores, equals that with the first parent alone on 0/1 data, and for codes below 10 whenever some row has all parents at 0 and some row all parents at their maxima.", "quantifier": "all 0/1 data sets, any number of parents", "why_tests_cant": "all data sets and parent sets", "anchors": ["pyBN/utils/independence_tests.py:mutual_information", "pyBN/learning/structure/score/hill_climbing.py:hc"]}
{"id": "C99", "title": "First-parent score prefers independent parents", "statement": "The score difference for giving v its first parent u is nrow times the entropy of v minus the mutual information of v and u (both rounded), never negative, and largest for u empirically independent of v.", "quantifier": "all non-empty data sets and pairs of columns", "why_tests_cant": "real-valued function of all data sets", "anchors": ["pyBN/learning/structure/score/hill_climbing.py:hc"]}
{"id": "C100", "title": "Searches on 0/1 data never give two parents", "statement": "On 0/1 data hc and tabu only ever make additions, and no variable of the returned network has more than one parent.", "quantifier": "all 0/1 data sets, restrictions, iteration limits, debug flags, tabu list lengths, dictionary orders", "why_tests_cant": "all data sets and whole search histories", "anchors": ["pyBN/learning/structure/score/hill_climbing.py:hc", "pyBN/learning/structure/score/tabu.py:tabu"]}
{"id": "C101", "title": "hc on 0/1 data returns a tree over all variables", "statement": "On 0/1 data in which no variable determines another (after rounding), hc without restriction and with max_iter above the number of columns returns a directed tree over all variables, even if all variables are independent in the data.", "quantifier": "all such data sets, debug flags, dictionary orders", "why_tests_cant": "all data sets and whole search histories", "anchors": ["pyBN/learning/structure/score/hill_climbing.py:hc"]}
{"id": "C102", "title": "read_bif reads back the network of the file", "statement": "Reading the BIF file of a network gives exactly its variables, values, parents, tables and arcs, with a node order over all of them.", "quantifier": "all BIF documents (any number of variables, values, parents), any iteration order", "why_tests_cant": "all documents", "anchors": ["pyBN/io/read.py:read_bif"]}
{"id": "C103", "title": "read_bif cuts rows to the cardinality of the last declared variable", "statement": "With K the number of values of the variable declared last, read_bif keeps of every conditional row the last K numbers if the row is long enough, and raises ValueError on the whole file if some conditional row with non-numeric labels is shorter.", "quantifier": "all BIF documents, iteration orders", "why_tests_cant": "all documents", "anchors": ["pyBN/io/read.py:read_bif"]}
{"id": "C104", "title": "Names containing 'variable' corrupt read_bif", "statement": "If a variable or one of its parents has a name containing 'variable', read_bif either raises or returns a network with a node named '(' that is in no file.", "quantifier": "all BIF documents with such a name anywhere", "why_tests_cant": "all documents", "anchors": ["pyBN/io/read.py:read_bif"]}
{"id": "C105", "title": "Incomplete BIF files", "statement": "A BIF file cut inside a conditional table makes read_bif run for ever; cut between two blocks it is read without error, the remaining variables having no parents and no table.", "quantifier": "all BIF documents and all such cut points", "why_tests_cant": "all crash points of a writer; non-termination", "anchors": ["pyBN/io/read.py:read_bif"]}
{"id": "C106", "title": "read_mat never has edges", "statement": "For every file read_mat returns a network without edges whose nodes are the first fields of the lines, each once, without values and tables.", "quantifier": "all files", "why_tests_cant": "all files", "anchors": ["pyBN/io/read.py:read_mat"]}
{"id": "C107", "title": "read_bn chooses the reader by substring", "statement": "read_bn uses the BIF reader iff '.bif' occurs anywhere in the path, otherwise the .bn reader iff '.bn' occurs, otherwise read_mat iff '.mat' occurs, otherwise it returns nothing.", "quantifier": "all paths", "why_tests_cant": "all strings", "anchors": ["pyBN/io/read.py:read_bn"]}
{"id": "C108", "title": "read_bif ignores row labels", "statement": "Two BIF files that differ only in the labels of conditional rows are read as the same network.", "quantifier": "all pairs of such documents, iteration orders", "why_tests_cant": "all documents", "anchors": ["pyBN/io/read.py:read_bif"]}
{"id": "C109", "title": "make_chordal returns a chordal supergraph of the moral graph", "statement": "For a well-formed network, make_chordal returns an undirected graph in which every cycle of four or more nodes has a chord, which contains every edge of the moral graph and no self-loop, and which equals the moral graph if that is already chordal. With a supplied graph (v, e), and a non-chordal moral graph, the result is chordal and contains e as soon as v lists the ends of all edges in e; if the network's own moral graph is chordal, the supplied graph is ignored.", "quantifier": "all well-formed networks, all supplied graphs, all set/dict iteration orders, every sound chordality test", "why_tests_cant": "chordality is about every cycle of every graph; elimination order depends on hash order", "anchors": ["pyBN/utils/graph.py:make_chordal"]}
{"id": "C110", "title": "make_chordal loses isolated variables", "statement": "The nodes of the graph returned by make_chordal are exactly the variables that have a parent or a child; a variable with neither does not occur in it.", "quantifier": "all well-formed networks, iteration orders", "why_tests_cant": "all networks", "anchors": ["pyBN/utils/graph.py:make_chordal"]}
{"id": "C111", "title": "mst is minimum", "statement": "For a connected undirected weighted graph given as a symmetric dictionary of dictionaries on nodes 0..n-1, mst returns the edges of a spanning tree, and every spanning tree of the graph costs at least as much.", "quantifier": "all connected weighted graphs, all iteration orders (ties)", "why_tests_cant": "minimality compares with all spanning trees of all graphs", "anchors": ["pyBN/utils/graph.py:mst"]}
{"id": "C112", "title": "CliqueTree is a junction tree", "statement": "For a well-formed network the cliques of CliqueTree(bn) are exactly the maximal cliques of a chordal graph that contains the moral graph; its edges form a tree rooted at clique 0 that reaches all cliques; any two cliques are linked by cliques which all contain their common variables (running intersection); and the family of every variable with a parent or child lies inside some clique.", "quantifier": "all well-formed networks, all iteration orders, every sound chordality test and every listing of the maximal cliques", "why_tests_cant": "the running intersection property is about all pairs of cliques of all triangulated graphs", "anchors": ["pyBN/classes/cliquetree.py:CliqueTree.initialize_tree", "pyBN/utils/graph.py:mst", "pyBN/utils/graph.py:make_chordal"]}
{"id": "C113", "title": "Each CPT goes to one clique", "statement": "In CliqueTree(bn) the CPT of every variable with a parent or child is assigned to exactly one clique, which contains its family; the CPT of a variable without parents and children is assigned to no clique.", "quantifier": "all well-formed networks, all iteration orders", "why_tests_cant": "all networks and hash orders", "anchors": ["pyBN/classes/cliquetree.py:CliqueTree.initialize_tree"]}
{"id": "C114", "title": "Clique potentials are the products of their CPTs", "statement": "The potential of each clique of CliqueTree(bn) is the product of the CPTs assigned to it, so that message passing yields the marginals of the network.", "quantifier": "all well-formed networks", "why_tests_cant": "all networks", "anchors": ["pyBN/classes/cliquetree.py:Clique.initialize_psi"]}
{"id": "C115", "title": "What the clique potentials are", "statement": "CliqueTree(bn) raises AssertionError if some clique has no CPT assigned. Otherwise a clique with one CPT has it as its potential, and for a clique with several the CPTs up to and including the first with the largest table enter squared and the others once. For a network with an arc there are fewer cliques than variables, so some clique is of the second kind.", "quantifier": "all well-formed networks, all iteration orders", "why_tests_cant": "all networks", "anchors": ["pyBN/classes/cliquetree.py:Clique.initialize_psi", "pyBN/classes/cliquetree.py:CliqueTree.initialize_tree"]}
{"id": "C116", "title": "Content of a clique message", "statement": "ct[i] >> ct[j] appends to the messages of clique j one factor: the belief of i times all messages i has received, with the variables of i outside j summed out; other cliques and unshared factors are unchanged. If a variable of i outside j occurs neither in the belief nor in a received message, KeyError is raised.", "quantifier": "all trees with well-formed unshared factors, all pairs of cliques, iteration orders", "why_tests_cant": "all trees, tables and message histories", "anchors": ["pyBN/classes/cliquetree.py:Clique.send_message"]}
{"id": "C117", "title": "Sending leaves the sender's belief intact", "statement": "After ct[i] >> ct[j] the belief of clique i is its former belief times the messages received, a well-formed factor over the same variables.", "quantifier": "all trees, pairs of cliques", "why_tests_cant": "all trees", "anchors": ["pyBN/classes/cliquetree.py:Clique.send_message"]}
{"id": "C118", "title": "Sending damages the sender", "statement": "After ct[i] >> ct[j] the belief of clique i has the scope, cardinalities and strides of the message but the table of the full product; asking it for a variable that was summed out raises KeyError. If i had received no message, its potential is the same damaged factor and sending to j again raises KeyError.", "quantifier": "all trees with well-formed unshared factors, all pairs of cliques, iteration orders", "why_tests_cant": "aliasing between copies, for all trees", "anchors": ["pyBN/classes/cliquetree.py:Clique.send_message", "pyBN/classes/factor.py:Factor.sumout_var"]}
{"id": "C119", "title": "The upward pass is exact for the potentials", "statement": "In a tree with the running intersection property and well-formed unshared potentials over their cliques, sending from each clique to its parent in any order in which children come first, then ct[root].collect_beliefs(), makes ct[root].marginalize_over(x) the product of all potentials summed over all variables other than x. Collecting a second time changes nothing. This applies to CliqueTree(bn) with root 0 whenever it can be built.", "quantifier": "all trees, potentials, children-first orders, variables of the root clique, iteration orders", "why_tests_cant": "all trees and schedules; factors share dictionaries", "anchors": ["pyBN/classes/cliquetree.py:Clique.send_message", "pyBN/classes/cliquetree.py:Clique.collect_beliefs", "pyBN/classes/cliquetree.py:Clique.marginalize_over"]}
{"id": "C120", "title": "CliqueTree.parents returns the clique itself", "statement": "ct.parents(v) returns the list containing v once for every clique that has v as a child: [] for clique 0 and [v] for every other clique of CliqueTree(bn).", "quantifier": "all trees and cliques", "why_tests_cant": "all trees", "anchors": ["pyBN/classes/cliquetree.py:CliqueTree.parents"]}
{"id": "C121", "title": "Growing phase of iamb", "statement": "For every target the growing phase of iamb ends, with a duplicate-free list of other columns. Each step tests the candidate of largest association with the target given the columns added so far (the first such), and if the test finds dependence appends the candidate that set iteration yields last. It stops when there is no candidate or that of largest association does not test as dependent.", "quantifier": "all outcomes of the tests, association values, numbers of columns, targets, set iteration orders", "why_tests_cant": "every combination of test outcomes; termination", "anchors": ["pyBN/learning/structure/constraint/iamb.py:iamb"]}
{"id": "C122", "title": "iamb adds the most associated variable", "statement": "Each variable iamb adds to a blanket is the one of largest association with the target given the blanket so far, and tests as dependent.", "quantifier": "all outcomes of the tests, association values, set iteration orders", "why_tests_cant": "every combination of test outcomes", "anchors": ["pyBN/learning/structure/constraint/iamb.py:iamb"]}
{"id": "C123", "title": "Shrinking phase of iamb", "statement": "The blanket returned for a target is the grown list after one pass that removes the members that test as dependent on the target given the other current members, skipping the member that follows each removed one: a sublist of the grown list, equal to it if no test finds dependence, every second element of it if all do.", "quantifier": "all outcomes of the tests, numbers of columns, targets, set iteration orders", "why_tests_cant": "a list changed while it is iterated; every combination of test outcomes", "anchors": ["pyBN/learning/structure/constraint/iamb.py:iamb"]}
{"id": "C124", "title": "iamb keeps exactly the dependent members", "statement": "After the shrinking phase every member of a blanket tests as dependent on the target given the others, and no grown member that does is lost.", "quantifier": "all outcomes of the tests", "why_tests_cant": "every combination of test outcomes", "anchors": ["pyBN/learning/structure/constraint/iamb.py:iamb"]}
{"id": "C125", "title": "orient_edges_gs2 gives every edge one direction", "statement": "orient_edges_gs2 returns, for an undirected graph, a directed graph that has exactly one of the arcs x->y, y->x for every edge x-y and no other arc.", "quantifier": "all undirected graphs, blankets, outcomes of the tests, dictionary and set orders", "why_tests_cant": "all graphs and test outcomes", "anchors": ["pyBN/utils/orient_edges.py:orient_edges_gs2"]}
{"id": "C126", "title": "Arcs returned by orient_edges_gs2", "statement": "On an undirected graph orient_edges_gs2 never raises. For an edge x-y with x iterated before y: y->x is returned iff y has a neighbour other than x that is not a neighbour of x; x->y is returned iff x has such a neighbour with respect to y and, for the first private neighbour z of y (if any), no test of x and z given y and a proper subset of the conditioning candidates is below the level. No other pair is linked.", "quantifier": "all undirected graphs, blankets, outcomes of the tests, dictionary and set orders", "why_tests_cant": "all graphs, orders and test outcomes", "anchors": ["pyBN/utils/orient_edges.py:orient_edges_gs2"]}
{"id": "C127", "title": "iamb always returns", "statement": "iamb(data) returns a network for every outcome of the tests: two columns are linked iff, from the side of one of them whose blanket holds the other, no test on a proper subset of the candidate set finds independence; linked pairs are oriented as orient_edges_gs2 does (C126); the nodes are the columns reachable from a column without parents. On two columns with alpha = 0.05 it never finds an edge.", "quantifier": "all outcomes of the tests, association values, numbers of columns, iteration orders", "why_tests_cant": "termination and absence of exceptions for every combination of test outcomes", "anchors": ["pyBN/learning/structure/constraint/iamb.py:iamb", "pyBN/utils/markov_blanket.py:resolve_markov_blanket", "pyBN/utils/orient_edges.py:orient_edges_gs2"]}
{"id": "C128", "title": "iamb returns an acyclic network over all columns", "statement": "The network iamb returns is acyclic and every column of the data is one of its nodes.", "quantifier": "all outcomes of the tests", "why_tests_cant": "every combination of test outcomes", "anchors": ["pyBN/learning/structure/constraint/iamb.py:iamb"]}
{"id": "C129", "title": "fast_iamb never returns", "statement": "fast_iamb(data) returns for no data: RuntimeError if some column does not test as dependent on the first one; an endless loop if there are two or more columns, every test finds dependence and every column has at most N/k values; NameError if all columns test as dependent on each other and no pair has enough rows; in all other cases NameError, RuntimeError or an endless loop.", "quantifier": "all outcomes of the tests, cardinalities, numbers of rows and columns, k, orders", "why_tests_cant": "non-termination, for every combination of test outcomes", "anchors": ["pyBN/learning/structure/constraint/fast_iamb.py:fast_iamb"]}
{"id": "C130", "title": "iamb for feature selection raises TypeError", "statement": "iamb(data, feature_selection=t) computes the blanket of column t and then raises TypeError.", "quantifier": "all outcomes of the tests, columns t", "why_tests_cant": "every combination of test outcomes", "anchors": ["pyBN/learning/structure/constraint/iamb.py:iamb"]}
{"id": "C131", "title": "naive_bayes builds the naive Bayes structure", "statement": "For rectangular data with at least one row and a target column, naive_bayes(data, target) returns (with either estimator) a well-formed network over exactly the columns: the target is listed first and has no parent, every other column has exactly the target as parent and no children. A target that is not a column raises KeyError.", "quantifier": "all rectangular integer data sets, targets, estimators, dictionary orders", "why_tests_cant": "all data sets and orders", "anchors": ["pyBN/learning/structure/naive/naive_bayes.py:naive_bayes"]}
{"id": "C132", "title": "naive_bayes learns relative frequencies", "statement": "In the network naive_bayes(data, target) returns, the values of a node are the distinct entries of its column and its table holds the relative frequencies of its values given the target (smoothed when estimator='bayes').", "quantifier": "all rectangular integer data sets, targets, estimators, dictionary orders", "why_tests_cant": "all data sets and targets", "anchors": ["pyBN/learning/structure/naive/naive_bayes.py:naive_bayes", "pyBN/learning/parameter/mle.py:mle_estimator"]}
{"id": "C133", "title": "Tables naive_bayes really learns", "statement": "naive_bayes lists the target first and then the other columns in dictionary order; a node gets the distinct entries of the column at its position in that list, observations are read from its own column, an observation outside the values counts as the last value, and the table holds the frequencies so counted.", "quantifier": "all rectangular integer data sets, targets, estimators, dictionary orders", "why_tests_cant": "all data sets and orders", "anchors": ["pyBN/learning/structure/naive/naive_bayes.py:naive_bayes", "pyBN/learning/parameter/mle.py:mle_estimator", "pyBN/learning/parameter/bayes.py:bayes_estimator"]}
{"id": "C134", "title": "The integer program of ilp_map is exact", "statement": "For every well-formed network whose child lists agree with its parent lists, the 0/1 program ilp_map hands to the solver has one variable per table entry, and its feasible solutions are exactly the complete assignments of the network: in each, every node selects one entry of its table and the selections of parents and children agree.", "quantifier": "all networks (any number of nodes, values, parents), all 0/1 solutions, all iteration orders of dictionaries and sets", "why_tests_cant": "the set of feasible solutions is exponential in the network, and a missing constraint only shows on particular structures (several children, several parents)", "anchors": ["pyBN/inference/map_exact/ilp_map.py:ilp_map", "pyBN/classes/bayesnet.py:BayesNet.cpt_indices"]}
{"id": "C135", "title": "ilp_map prints a complete assignment that is a maximum up to rounding", "statement": "With positive tables and a solver that returns an optimum, ilp_map prints, for every node, its value and its parents' values in one complete assignment, and no complete assignment is more than exp(n/1000) times as probable (n nodes); the evidence argument changes nothing. An optimum always exists.", "quantifier": "all networks with positive tables, all optimal solvers, all evidence arguments", "why_tests_cant": "a statement about all assignments of all networks and about any optimal solver", "anchors": ["pyBN/inference/map_exact/ilp_map.py:ilp_map", "pyBN/classes/bayesnet.py:BayesNet.cpt_str_idx"]}
{"id": "C136", "title": "ilp_map prints the most probable assignment given the evidence", "statement": "ilp_map(bn, evidence) prints a complete assignment that agrees with the evidence and is at least as probable as every other assignment that does.", "quantifier": "all networks, all evidence, all optimal solvers", "why_tests_cant": "optimality ranges over exponentially many assignments; near ties are not hit by example networks", "anchors": ["pyBN/inference/map_exact/ilp_map.py:ilp_map"]}
{"id": "C137", "title": "entropy of one or two columns is the Shannon (conditional) entropy", "statement": "For non-empty data whose columns have codes without gaps, entropy(data) of one column is the Shannon entropy H(X) of the column to within 5e-5, and of two columns the conditional entropy H(X|Y), never more than 5e-5 below it and never more than 5e-5 + 1.7e-6*|X|*|Y| above it; the result is never negative.", "quantifier": "every number of rows, every number of values per column, every starting code", "why_tests_cant": "the bound must hold for every data set and number of values", "anchors": ["pyBN/utils/independence_tests.py:entropy", "pyBN/utils/data.py:unique_bins"]}
{"id": "C138", "title": "entropy of three columns is the conditional entropy H(X|Y,Z)", "statement": "For non-empty data with three columns entropy(data) is H(X|Y,Z) up to smoothing and rounding.", "quantifier": "every data set of three integer-coded columns", "why_tests_cant": "the value depends on the coding convention; a test sees one coding", "anchors": ["pyBN/utils/independence_tests.py:entropy"]}
{"id": "C139", "title": "entropy of three 0/1 columns ignores the data", "statement": "On non-empty 0/1 data with three columns entropy(data) returns 0.0 whatever the data are, or raises ValueError exactly when some column is constantly 0, because the largest code is used as the number of bins.", "quantifier": "every 0/1 data set with three columns", "why_tests_cant": "a statement about all data sets", "anchors": ["pyBN/utils/independence_tests.py:entropy"]}
{"id": "C140", "title": "mi_from_en is the (conditional) mutual information", "statement": "mi_from_en(data) is I(X;Y) of two columns and I(X;Y|Z) of three, up to smoothing and rounding.", "quantifier": "every data set of two or three integer-coded columns", "why_tests_cant": "a numeric identity with error bound over all data sets", "anchors": ["pyBN/utils/independence_tests.py:mi_from_en", "pyBN/utils/independence_tests.py:entropy"]}
{"id": "C141", "title": "What mi_from_en does on two columns and on 0/1 columns", "statement": "On two columns mi_from_en raises ValueError unless there is exactly one row (then it returns 0.0); on fewer than two columns it raises UnboundLocalError; on three 0/1 columns each containing a 1 it returns exactly entropy(data[:,(0,2)]), whatever the second column is.", "quantifier": "every data set", "why_tests_cant": "independence of a whole column over all data sets", "anchors": ["pyBN/utils/independence_tests.py:mi_from_en"]}
{"id": "C142", "title": "log_likelihood is a sum over table entries and log(nrow); ordering is irrelevant", "statement": "For a well-formed network with non-negative tables and nrow >= 1, log_likelihood(bn, nrow) = num_params*log(nrow) + sum over all table entries of log(entry + 1e-7); with nrow = 0 it is -inf unless there are no parameters. Reordering nodes, parents or the entries of a table changes none of LL, AIC, BIC, MDL or info_score for any metric name.", "quantifier": "every well-formed network, every nrow, every metric name, every reordering", "why_tests_cant": "an identity and invariance over all networks", "anchors": ["pyBN/learning/structure/score/info_scores.py:log_likelihood", "pyBN/learning/structure/score/info_scores.py:info_score", "pyBN/classes/bayesnet.py:BayesNet.flat_cpt"]}
{"id": "C143", "title": "log_likelihood ranks parameters by the likelihood of the data", "statement": "For two networks of the same structure with proper tables and any data set with nrow rows, the network giving the data the higher likelihood has a log_likelihood(bn, nrow) at least as high.", "quantifier": "every pair of networks of one structure, every data set", "why_tests_cant": "a comparison over all pairs of parameterisations and data sets", "anchors": ["pyBN/learning/structure/score/info_scores.py:log_likelihood"]}
{"id": "C144", "title": "Uniform tables maximise every information score", "statement": "Among the networks of one structure with non-negative normalised tables, the one with uniform tables has the highest info_score for every metric and every nrow >= 1, strictly unless the tables are equal; so fitting to data can only lower the score.", "quantifier": "every structure, all cardinalities, all normalised tables, every nrow, every metric name", "why_tests_cant": "an extremal statement over a continuum of tables", "anchors": ["pyBN/learning/structure/score/info_scores.py:info_score"]}
{"id": "C145", "title": "BIC penalises log(N)/2 per parameter", "statement": "BIC(bn, nrow) = log_likelihood(bn, nrow) - num_params*log(nrow)/2, as documented.", "quantifier": "every network, every nrow", "why_tests_cant": "an identity over all networks and row counts", "anchors": ["pyBN/learning/structure/score/info_scores.py:BIC"]}
{"id": "C146", "title": "The penalties actually applied by AIC, BIC, MDL and info_score", "statement": "AIC subtracts the number of table entries; BIC and MDL subtract (per table entry) half the logarithm of the number of arcs, so nothing with at most one arc, and never anything depending on nrow; info_score upper-cases the metric name and treats every name other than LL and AIC as BIC.", "quantifier": "every well-formed network, every nrow >= 1, every metric name", "why_tests_cant": "an identity over all networks", "anchors": ["pyBN/learning/structure/score/info_scores.py:BIC", "pyBN/learning/structure/score/info_scores.py:AIC", "pyBN/learning/structure/score/info_scores.py:MDL", "pyBN/learning/structure/score/info_scores.py:info_score"]}
{"id": "C147", "title": "AIC does not prefer an irrelevant parent", "statement": "Adding to a node a parent on which its table does not depend (same distribution, more parameters) does not raise AIC.", "quantifier": "every network, node, number of values of the added parent, nrow", "why_tests_cant": "a comparison over all networks", "anchors": ["pyBN/learning/structure/score/info_scores.py:AIC"]}
{"id": "C148", "title": "The exact effect of an irrelevant parent on LL and AIC", "statement": "Repeating the table of a node k times changes log_likelihood by (k-1)*sum log(nrow*(entry+1e-7)) and AIC by (k-1)*sum (log(nrow*(entry+1e-7)) - 1); so AIC strictly prefers the irrelevant parent as soon as nrow*entry >= 3 for all entries of the table.", "quantifier": "every network, node, k, nrow", "why_tests_cant": "an identity over all networks", "anchors": ["pyBN/learning/structure/score/info_scores.py:log_likelihood", "pyBN/learning/structure/score/info_scores.py:AIC"]}
{"id": "C149", "title": "mb_fitness of a single target is always 0", "statement": "mb_fitness(data, Mb, t) for one column t returns {t: 0} whatever the data and blankets (KeyError if Mb has no entry for t).", "quantifier": "every data set, blanket dictionary, column, set iteration order", "why_tests_cant": "for all data sets", "anchors": ["pyBN/utils/markov_blanket.py:mb_fitness"]}
{"id": "C150", "title": "What mb_fitness computes", "statement": "With several or no targets the fitness of T is the sum over the other evaluated nodes outside Mb[T] of 1/mi_test(T, X, Mb[T]), whatever the set order; nan if one p-value is nan; ZeroDivisionError if any p-value rounds to 0; a node without blanket raises; with at least two degrees of freedom in the tests it is at least the number of nodes outside the blanket.", "quantifier": "every data set, blanket dictionary, target, set iteration order", "why_tests_cant": "for all data sets and iteration orders", "anchors": ["pyBN/utils/markov_blanket.py:mb_fitness", "pyBN/utils/independence_tests.py:mi_test"]}
{"id": "C151", "title": "mb_fitness is near zero for a correct blanket", "statement": "If T is independent in the data of every node outside its blanket given the blanket, its fitness is (close to) zero.", "quantifier": "every data set and blanket dictionary", "why_tests_cant": "for all data sets", "anchors": ["pyBN/utils/markov_blanket.py:mb_fitness"]}
{"id": "C152", "title": "to_log followed by from_log restores the table", "statement": "A factor table with non-negative entries comes back from to_log(); from_log() without inf or nan, every entry within 5e-6 plus 5.00003e-6 times its value, 0 and 1 exactly, order of entries never reversed, entries in [0,1] with at most five decimals exactly; a second round trip changes nothing; a row of n probabilities keeps its sum within n*1.1e-5; negative entries come back nan.", "quantifier": "every table", "why_tests_cant": "over all real tables", "anchors": ["pyBN/classes/factor.py:Factor.to_log", "pyBN/classes/factor.py:Factor.from_log"]}
{"id": "C153", "title": "The log round trip keeps possible events possible", "statement": "A positive entry is positive after to_log(); from_log().", "quantifier": "every table with positive entries", "why_tests_cant": "over all real tables", "anchors": ["pyBN/classes/factor.py:Factor.to_log", "pyBN/classes/factor.py:Factor.from_log"]}
{"id": "C154", "title": "maxout_var on a log table returns zeros", "statement": "For every factor of positive probabilities, to_log() then maxout_var(rv) yields a table of zeros, and from_log() then a table of ones, whatever the entries were.", "quantifier": "every well-formed factor with entries in (0,1], every scope variable", "why_tests_cant": "over all factors", "anchors": ["pyBN/classes/factor.py:Factor.to_log", "pyBN/classes/factor.py:Factor.maxout_var"]}
{"id": "C155", "title": "The mass of EmpiricalDistribution.joint", "statement": "For data with at least one row and column, EmpiricalDistribution(data).joint has one entry per combination of bins, each at least 0.001; the entries add up to 1 + 0.001 * (number of cells), so never to 1. Passing names always raises AttributeError.", "quantifier": "every rectangular data set", "why_tests_cant": "over all data sets and numbers of columns", "anchors": ["pyBN/classes/empiricaldistribution.py:EmpiricalDistribution.__init__"]}
{"id": "C156", "title": "EmpiricalDistribution answers no query", "statement": "Whatever the data, the earlier calls and the arguments, mpd, jpd, cpd, mi and idx_map raise; the cache stays empty and the object is unchanged by any history of calls.", "quantifier": "every data set, every finite history of calls, every argument", "why_tests_cant": "over all histories", "anchors": ["pyBN/classes/empiricaldistribution.py:EmpiricalDistribution.mpd", "pyBN/classes/empiricaldistribution.py:EmpiricalDistribution.jpd", "pyBN/classes/empiricaldistribution.py:EmpiricalDistribution.cpd", "pyBN/classes/empiricaldistribution.py:EmpiricalDistribution.mi"]}
{"id": "C157", "title": "BayesNet(E, value_dict) owns its node list, parents and tables, but not E and the values", "statement": "Constructing a network from an edge dictionary changes no existing object and makes new, pairwise different objects for the node list, every parents list and every table; the network's children dictionary is the caller's E object and its value lists are the caller's lists. It raises exactly when the construction on plain values raises, and a reader sees the same network. If E is acyclic and its lists are separate objects, the result is ready for the edit histories of C22.", "quantifier": "all edge dictionaries, value dictionaries, heaps and iteration orders", "why_tests_cant": "object identity is invisible to value comparisons; all dictionaries", "anchors": ["pyBN/classes/bayesnet.py:BayesNet.__init__", "pyBN/classes/bayesnet.py:BayesNet.set_structure"]}
{"id": "C158", "title": "Networks built from the same edge dictionary are independent", "statement": "If two networks are built from the same edge dictionary, no later operation on one is visible in the other.", "quantifier": "all edge dictionaries, all operations between and after the two constructions, all interleavings", "why_tests_cant": "aliasing over all interleavings", "anchors": ["pyBN/classes/bayesnet.py:BayesNet.set_structure", "pyBN/classes/bayesnet.py:BayesNet.add_edge", "pyBN/classes/bayesnet.py:BayesNet.remove_edge"]}
{"id": "C159", "title": "Networks built from the same edge dictionary share their children lists", "statement": "Two networks built from the same edge dictionary show the same children lists for ever, whatever is done to either. As soon as add_edge(u, v) succeeds on one, the other lists v as a child of u but not u as a parent of v, has_edge(u, v) holds there, add_edge(u, v) there changes nothing, and remove_edge(u, v) there raises ValueError.", "quantifier": "all edge dictionaries, all interleavings of operations, all new arcs between common nodes", "why_tests_cant": "aliasing over all interleavings", "anchors": ["pyBN/classes/bayesnet.py:BayesNet.set_structure", "pyBN/classes/bayesnet.py:BayesNet.add_edge", "pyBN/classes/bayesnet.py:BayesNet.remove_edge"]}
{"id": "C160", "title": "mi_test(test=False) with a conditioning column is the smoothed empirical conditional mutual information", "statement": "For three columns coded 0,1,..., mi_test(data, test=False) is within half of 1e-4 of the empirical conditional mutual information of the first two columns given the third, smoothed by 1e-7; for data in which the first two are conditionally independent it is not negative, and it is 0 if the third column has at most 400 values and there are at most a million rows.", "quantifier": "all non-empty three-column data sets with contiguous codes", "why_tests_cant": "real-valued function of all data sets", "anchors": ["pyBN/utils/independence_tests.py:mi_test"]}
{"id": "C161", "title": "p-value of conditionally independent data", "statement": "For three coded columns, the first two conditionally independent given the third in the data, and rows times values of the third column at most 3000: mi_test returns nan with 0 degrees of freedom, at least 0.99 with 2 (are_independent answers False at level 0.05), and less than 0.05 with 3 or more (are_independent answers True): conditionally independent data count as dependent as soon as there are three degrees of freedom.", "quantifier": "all such data sets", "why_tests_cant": "all data sets and cardinalities", "anchors": ["pyBN/utils/independence_tests.py:mi_test", "pyBN/utils/independence_tests.py:are_independent"]}
{"id": "C162", "title": "Sizes and column sums of a network's tables", "statement": "For a well-formed network, scope_size(rv) is the number of (distinct) variables in scope(rv), namely rv and its parents, and the table has one entry per joint configuration of them; an unknown name raises KeyError. flat_cpt(by_var=True) has one entry per node in node order, the sum of its table; when every conditional distribution sums to 1 that entry is the number of configurations of the node's parents.", "quantifier": "all well-formed networks and names", "why_tests_cant": "holds for every network, any number of parents and cardinalities", "anchors": ["pyBN/classes/bayesnet.py:BayesNet.scope_size", "pyBN/classes/bayesnet.py:BayesNet.flat_cpt"]}
{"id": "C163", "title": "Positions of nodes and values", "statement": "node_idx(rv) is i exactly when rv is the i-th node, and -1 exactly when rv is not a node; value_idx(rv, val) of a node is i exactly when val is its i-th value, and -1 exactly when it has no such value.", "quantifier": "all well-formed networks, names and values", "why_tests_cant": "every network", "anchors": ["pyBN/classes/bayesnet.py:BayesNet.node_idx", "pyBN/classes/bayesnet.py:BayesNet.value_idx", "pyBN/classes/bayesnet.py:BayesNet.has_node"]}
{"id": "C164", "title": "unique_bins counts the values of each column", "statement": "unique_bins(data) has one entry per column: the number of distinct values in it; the integer codes replace_strings gives that column of numbers are exactly 0, ..., bins-1.", "quantifier": "all data sets", "why_tests_cant": "all columns of any length and content", "anchors": ["pyBN/utils/data.py:unique_bins", "pyBN/utils/data.py:replace_strings"]}
{"id": "C165", "title": "Entry points that always raise, and calls on empty input", "statement": "gs(data, feature_selection=x) never returns (TypeError, or it runs forever); chow_liu(data) never returns (TypeError for two or more columns, IndexError otherwise); consolidate() returns exactly when there is one factor (IndexError with none, NameError with several); mi_test and are_independent return exactly when there are rows and two or more columns, and raise ValueError otherwise; gibbs_sample on a network in which some node has no values raises ValueError.", "quantifier": "all inputs, test outcomes and random draws", "why_tests_cant": "a claim that a call never returns ranges over every input", "anchors": ["pyBN/learning/structure/constraint/grow_shrink.py:gs", "pyBN/learning/structure/tree/chow_liu.py:chow_liu", "pyBN/classes/factorization.py:Factorization.consolidate", "pyBN/utils/independence_tests.py:mi_test", "pyBN/inference/marginal_approx/gibbs_sample.py:gibbs_sample"]}
{"id": "C166", "title": "Floating point error of marginal_ve_e", "statement": "When sums and products of CPT entries are rounded with relative error at most u (IEEE double: u = 2^-53, over- and underflow excluded), marginal_ve_e on a legal query is answered or raises exactly as in exact arithmetic, and every reported entry is the 4-decimal rounding of the true P(target=i, evidence) perturbed by at most K = |V|-1 + sum of the cardinalities of the eliminated variables relative errors of size u, whatever the hash orders; hence within 1/20000 + (1+u)^K - 1 of the exact value (1/20000 + 2^-32 in double precision for K up to 2^20), and an impossible event is reported as exactly 0.", "quantifier": "all rounding functions with relative error below u<1, all well-formed networks with non-negative CPTs, all legal queries, all hash orders", "why_tests_cant": "A worst-case error bound ranges over all rounding behaviours, table values, network sizes and hash-dependent multiplication orders.", "anchors": ["pyBN/inference/marginal_exact/ve_marginal.py: marginal_ve_e", "pyBN/classes/factor.py: multiply_factor, sumout_var", "pyBN/classes/factorization.py: sum_product_eliminate_var"]}
{"id": "C167", "title": "Floating point and ve_map", "statement": "In the same rounded arithmetic ve_map returns, for every legal evidence, a complete assignment agreeing with the evidence whose probability is within a factor ((1+u)/(1-u))^(|V|-1) of the greatest one; in particular a most probable assignment that beats all others by more than that factor is the one returned.", "quantifier": "all rounding functions with relative error below u<1, all well-formed networks with non-negative CPTs, all legal evidence, all hash orders", "why_tests_cant": "It bounds how wrong an argmax can be for all tables and all rounding behaviours.", "anchors": ["pyBN/inference/map_exact/ve_map.py: ve_map", "pyBN/classes/factorization.py: max_product_eliminate_var, traceback_map"]}
{"id": "C168", "title": "Floating point and the probability reported by ve_map(prob=True)", "statement": "In the same rounded arithmetic the probability reported with prob=True is the 5-decimal rounding of a number within |V|-1 relative errors of the probability of the assignment reported with it, which is the one ve_map returns without prob; the call is answered exactly when it is in exact arithmetic.", "quantifier": "all rounding functions with relative error below u<1, all well-formed networks with non-negative CPTs, all legal evidence, all hash orders", "why_tests_cant": "Ranges over all tables, all rounding behaviours and all hash orders.", "anchors": ["pyBN/inference/map_exact/ve_map.py: ve_map", "pyBN/classes/factorization.py: consolidate"]}
{"id": "C169", "title": "The head variable of a factor", "statement": "Factor(bn, v) is headed by v (f.var) and f.parents() lists v's parents; a product keeps the head of its left operand; sumover_var(rv) is headed by rv; sumout_var and reduce_factor keep the head unless it is the variable removed, in which case a remaining variable of stride 1 takes over (so parents() always lists the rest of the scope), the old name surviving only when the scope becomes empty. maxout_var never updates the head: after maximising over the head itself, f.var is not in the scope and parents() is the whole scope.", "quantifier": "all well-formed networks and factors, all scope variables, all hash orders", "why_tests_cant": "Ranges over all scopes, layouts and hash orders; the repository's tests look at one factor.", "anchors": ["pyBN/classes/factor.py: Factor.__init__, parents, __repr__, multiply_factor, sumover_var, sumout_var, maxout_var, reduce_factor"]}
{"id": "C170", "title": "Operations on a variable outside the scope", "statement": "sumout_var, maxout_var, sumover_var and reduce_factor with a variable outside the factor's scope raise KeyError.", "quantifier": "all well-formed factors, all variables outside the scope, all values", "why_tests_cant": "Absence of a silent wrong result for every factor and every foreign variable.", "anchors": ["pyBN/classes/factor.py: sumout_var, maxout_var, sumover_var, reduce_factor"]}
{"id": "C171", "title": "Precision of forward_sample", "statement": "With independent uniform random numbers, what forward_sample(bn, n) returns for a value of a node has mean p = P(v = x) and variance p(1-p)/n, and misses p by eps or more with probability at most 2 exp(-2 n eps^2).", "quantifier": "all well-formed normalised networks listed parents first, all n >= 1, all nodes and values, all eps >= 0, all probability spaces carrying independent uniform numbers", "why_tests_cant": "A statement about the whole distribution of results; a finite number of seeds cannot establish an exponential tail bound.", "anchors": ["pyBN/inference/marginal_approx/forward_sample.py: forward_sample"]}
{"id": "C172", "title": "forward_sample is consistent", "statement": "Almost surely the estimates of forward_sample(bn, n) converge to the exact marginal probabilities as n grows.", "quantifier": "all well-formed normalised networks listed parents first, all nodes and values, almost all random-number sequences", "why_tests_cant": "A limit over infinitely many sample sizes on almost every infinite random sequence.", "anchors": ["pyBN/inference/marginal_approx/forward_sample.py: forward_sample"]}
{"id": "C173", "title": "lw_sample is consistent", "statement": "For evidence of positive probability, almost surely lw_sample(bn, n, evidence) eventually always succeeds and its estimates end up within half a unit of the fourth digit of P(v = x | evidence).", "quantifier": "all well-formed normalised networks listed parents first, all legal evidence of positive probability, all nodes and values compatible with it, almost all random-number sequences", "why_tests_cant": "A limit over infinitely many sample sizes on almost every infinite random sequence.", "anchors": ["pyBN/inference/marginal_approx/lw_sample.py: lw_sample"]}
{"id": "C174", "title": "gibbs_sample is consistent for a fixed burn-in", "statement": "For a fixed burn-in, almost surely the estimates of gibbs_sample(bn, n, burn) end up within half a unit of the fourth digit of the exact marginal probabilities as n grows (the wrong divisor does not matter in the limit).", "quantifier": "all well-formed normalised networks listed parents first, all burn-ins, all nodes and values, almost all random-number sequences", "why_tests_cant": "A limit over infinitely many sample sizes on almost every infinite random sequence.", "anchors": ["pyBN/inference/marginal_approx/gibbs_sample.py: gibbs_sample"]}
{"id": "C175", "title": "The parameter distances are distances", "statement": "euclidean, manhattan and minkowski compare the parameters of two networks of the same structure: the distance of a network to itself is 0, the distances are symmetric and satisfy the triangle inequality; minkowski with p = 1 is manhattan and with p = 2 the Euclidean distance; kl_divergence is never negative and 0 only for equal parameters; hellinger is symmetric and, for a single table, between 0 and 1.", "quantifier": "all networks of the same structure", "why_tests_cant": "Metric axioms quantify over all pairs and triples of networks.", "anchors": ["pyBN/utils/parameter_distance.py: euclidean, manhattan, minkowski"]}
{"id": "C176", "title": "What the parameter and hybrid distances do", "statement": "As shipped all six parameter distances and hybrid_distance raise NameError on every input; with the missing import restored the parameter distances raise AssertionError for networks over different nodes and TypeError for every other pair of non-empty networks, and js_divergence returns for no pair at all.", "quantifier": "all pairs of well-formed networks, all p and alpha", "why_tests_cant": "Claims that no input whatever is answered.", "anchors": ["pyBN/utils/parameter_distance.py: euclidean, manhattan, minkowski, kl_divergence, js_divergence, hellinger", "pyBN/utils/hybrid_distance.py: hybrid_distance", "pyBN/classes/bayesnet.py: __eq__"]}
{"id": "C177", "title": "What exact_bp does", "statement": "As shipped exact_bp raises NameError on every network. With the missing import restored it passes no message between two cliques: it picks as root the first clique containing the target (the first clique if none does) and returns the potential of that clique - squared, unless it is clique 0 - summed over the other variables, or KeyError if that potential does not mention the target.", "quantifier": "all well-formed networks, targets, set orders and all correct chordality tests, clique listings and postorders", "why_tests_cant": "Every tree and every set order; a test sees one tree.", "anchors": ["pyBN/inference/marginal_exact/exact_bp.py: exact_bp", "pyBN/classes/cliquetree.py: parents, send_message, collect_beliefs, marginalize_over"]}
{"id": "C178", "title": "exact_bp returns the marginal distribution", "statement": "exact_bp(bn, target) returns the marginal distribution of target.", "quantifier": "all well-formed normalised networks and targets", "why_tests_cant": "Ranges over every network.", "anchors": ["pyBN/inference/marginal_exact/exact_bp.py: exact_bp"]}
{"id": "C179", "title": "With perfect tests, gs finds the true Markov blankets when it returns", "statement": "If the independence tests answer by d-separation in some directed acyclic graph, then whenever the blanket search of gs for a variable returns, the blanket is exactly the variable's parents, children and the other parents of its children; it returns exactly if the growing phase adds no variable outside the blanket.", "quantifier": "all directed acyclic graphs, all numbers of variables, all variables", "why_tests_cant": "Ranges over all graphs and all test outcomes.", "anchors": ["pyBN/learning/structure/constraint/grow_shrink.py: gs"]}
{"id": "C180", "title": "With perfect tests, resolve_markov_blanket returns the skeleton", "statement": "Given the Markov blankets of a directed acyclic graph and tests that answer by d-separation in it, resolve_markov_blanket links exactly the pairs joined by an arc (although it never tests the full candidate set, C77).", "quantifier": "all directed acyclic graphs and all orders in which the blankets are listed", "why_tests_cant": "Ranges over all graphs; exponential number of conditioning sets.", "anchors": ["pyBN/utils/markov_blanket.py: resolve_markov_blanket"]}
{"id": "C181", "title": "With perfect tests, gs recovers the skeleton", "statement": "If the tests answer by d-separation in a directed acyclic graph, gs returns a network over all variables whose linked pairs are those of the graph, each in one direction.", "quantifier": "all directed acyclic graphs", "why_tests_cant": "Ranges over all graphs.", "anchors": ["pyBN/learning/structure/constraint/grow_shrink.py: gs", "pyBN/utils/orient_edges.py: orient_edges_MB"]}
{"id": "C182", "title": "With perfect tests, iamb finds the blanket of isolated variables only", "statement": "If the tests answer by d-separation in a directed acyclic graph, the blanket iamb computes for a variable equals its Markov blanket in the graph if and only if the variable has no parents and no children.", "quantifier": "all directed acyclic graphs, variables, association scores and set orders", "why_tests_cant": "A statement that every non-trivial case is wrong.", "anchors": ["pyBN/learning/structure/constraint/iamb.py: iamb"]}
{"id": "C183", "title": "With perfect tests, pc recovers the skeleton", "statement": "If the tests answer by d-separation in a directed acyclic graph, the pairs linked by pc are those of the graph.", "quantifier": "all directed acyclic graphs", "why_tests_cant": "Ranges over all graphs.", "anchors": ["pyBN/learning/structure/constraint/path_condition.py: pc"]}
{"id": "C184", "title": "A Factorization always stands for what its operators say", "statement": "Factorization(bn, nodes) stands for the product of the tables of its nodes (the joint probability by default). After any sequence of `- (rv, val)`, `/ rv`, `// rv` and refresh(), exceptions being caught, the product of its factors is the function obtained by fixing, summing out and maximising out those variables in that order; `- ` with an unknown value raises ValueError, `/` and `//` on a variable that is gone raise IndexError, nothing else raises; map_assignment holds the values given to `-` and map_factors the maximised variables in order.", "quantifier": "all well-formed networks with non-negative tables, all node lists, all call sequences, all hash orders", "why_tests_cant": "Quantifies over every history of calls, failed ones included.", "anchors": ["pyBN/classes/factorization.py: Factorization.__init__, refresh, __div__, __floordiv__, __sub__, sum_product_eliminate_var, max_product_eliminate_var"]}
{"id": "C185", "title": "refresh() undoes everything", "statement": "After any calls on a Factorization, refresh() gives the object back as it was built.", "quantifier": "all networks, node lists and call sequences", "why_tests_cant": "Quantifies over every history of calls.", "anchors": ["pyBN/classes/factorization.py: Factorization.refresh"]}
{"id": "C186", "title": "A failed operation on a Factorization changes nothing", "statement": "If `-`, `/` or `//` raises, the Factorization is as it was before the call.", "quantifier": "all reachable Factorization objects and calls", "why_tests_cant": "Quantifies over every state in which a call can fail.", "anchors": ["pyBN/classes/factorization.py: Factorization.__sub__, __div__, __floordiv__"]}
{"id": "C187", "title": "Marginal MAP with the operators", "statement": "Reducing a Factorization by the evidence, then summing out some nodes, then maximising out the rest - each group in any order - and calling traceback_map() returns the evidence together with values of the maximised nodes that maximise P(maximised nodes, evidence); the summed nodes are not in the answer. (Summing after maximising makes traceback_map raise.)", "quantifier": "all well-formed networks with non-negative tables, legal evidence, every split of the other nodes, every order and hash order", "why_tests_cant": "Optimality over all assignments, for all networks and orders.", "anchors": ["pyBN/classes/factorization.py: Factorization.__sub__, __div__, __floordiv__, traceback_map"]}
{"id": "C188", "title": "mle_estimator recovers the network that generated the data", "statement": "Draw n rows from a network with random_sample and pass them, with the network's structure, to mle_estimator. Almost surely, for all large n, the call succeeds, nodes, parents and numbers of values are those of the source, and every learned P(v=x|pa) with P(pa)>0 is within 5e-6 plus any epsilon of the true one.", "quantifier": "all well-formed normalised networks over columns 0..m-1 listed parents first in which every value is possible, all node values and parent configurations of positive probability, almost all random-number sequences, all contents of uninitialised memory, all hash orders", "why_tests_cant": "A limit over infinitely many sample sizes on almost every infinite random sequence.", "anchors": ["pyBN/utils/random_sample.py: random_sample", "pyBN/learning/parameter/mle.py: mle_estimator"]}
{"id": "C189", "title": "bayes_estimator with a fixed prior weight recovers the network that generated the data", "statement": "As C188 for bayes_estimator with a fixed positive equiv_sample: the prior is washed out as the number of rows grows.", "quantifier": "as C188, and all positive equivalent sample sizes", "why_tests_cant": "A limit over infinitely many sample sizes on almost every infinite random sequence.", "anchors": ["pyBN/utils/random_sample.py: random_sample", "pyBN/learning/parameter/bayes.py: bayes_estimator"]}
{"id": "C190", "title": "bayes_estimator with its defaults recovers the network that generated the data", "statement": "As C188 for bayes_estimator called without equiv_sample.", "quantifier": "as C188", "why_tests_cant": "A limit over infinitely many sample sizes on almost every infinite random sequence.", "anchors": ["pyBN/learning/parameter/bayes.py: bayes_estimator"]}
{"id": "C191", "title": "What bayes_estimator with its defaults converges to", "statement": "Because the default equiv_sample is the number of rows, the estimates on data drawn from the network converge (almost surely, up to the rounding to five digits) to (1/K + P(v=x,pa)) / (card(v)/K + P(pa)) with K the number of table entries, whatever the number of rows.", "quantifier": "as C188", "why_tests_cant": "A limit over infinitely many sample sizes on almost every infinite random sequence.", "anchors": ["pyBN/learning/parameter/bayes.py: bayes_estimator"]}
{"id": "C192", "title": "Mutual information and entropy of sampled data converge", "statement": "On columns u, v of n rows drawn from a network with random_sample, mi_test(data[:,(u,v)], test=False) is, almost surely and for all large n, within 5e-5 + eps of the (1e-7-smoothed) mutual information of the two nodes, a non-negative number that is 0 exactly when the nodes are independent; entropy(data[:,(u,)]) is within the rounding plus eps of the entropy of the node.", "quantifier": "all networks on columns 0..m-1 listed parents first with all values possible, all pairs of nodes, all streams of independent uniform numbers, all eps > 0, all large n", "why_tests_cant": "A statement about the limit over infinitely many sample sizes on almost every infinite random sequence.", "anchors": ["pyBN/utils/independence_tests.py: mi_test, entropy", "pyBN/utils/random_sample.py: random_sample"]}
{"id": "C193", "title": "Dependence is always detected on enough data, and are_independent then answers True", "statement": "If two nodes of a network are dependent, then almost surely, for all large n, the p-value mi_test(data[:,(u,v)]) on n rows drawn with random_sample is exactly 0, and are_independent(data[:,(u,v)], alpha) answers True at every level alpha > 0 (the wrong way round).", "quantifier": "as C192, all dependent pairs, all alpha > 0", "why_tests_cant": "A statement about the limit over infinitely many sample sizes on almost every infinite random sequence.", "anchors": ["pyBN/utils/independence_tests.py: mi_test, are_independent", "pyBN/utils/random_sample.py: random_sample"]}
{"id": "C194", "title": "Inference is stable under small changes of the tables", "statement": "Changing every table entry of a network by at most delta, with the structure and values unchanged, leaves every query that marginal_ve_e answers answered, moves no entry of the answer by more than prod(1 + card(v) delta) - 1 (plus the rounding of the two answers), and the explanation ve_map returns for the changed network is, under the original one, within twice that of the most probable.", "quantifier": "all well-formed acyclic networks with normalised tables, all perturbations, delta >= 0, targets, evidence, hash orders", "why_tests_cant": "The bound must hold for every network size and every perturbation.", "anchors": ["pyBN/inference/marginal_exact/ve_marginal.py: marginal_ve_e", "pyBN/inference/map_exact/ve_map.py"]}
{"id": "C195", "title": "Sampling, learning and then inference recovers the true answers", "statement": "Draw n rows from a network with random_sample, learn the tables of its structure with mle_estimator, and ask the learned network: almost surely, for every eps > 0 and all large n, every query that links the network is answered by marginal_ve_e with entries within 5e-5 + drift + eps of the true joint probability of target value and evidence, and every ve_map explanation has a true probability within 2 (drift + eps) of the best, where drift = prod(1 + 5e-6 card(v)) - 1.", "quantifier": "all networks on columns 0..m-1 listed parents first in which every combination of parent values is possible, all targets, evidence, hash orders, streams of independent uniform numbers", "why_tests_cant": "A limit over infinitely many sample sizes on almost every infinite random sequence, uniform over all queries.", "anchors": ["pyBN/utils/random_sample.py: random_sample", "pyBN/learning/parameter/mle.py: mle_estimator", "pyBN/inference/marginal_exact/ve_marginal.py: marginal_ve_e", "pyBN/inference/map_exact/ve_map.py"]}
{"id": "C196", "title": "Functions that never get to their answer", "statement": "mle_fast raises AttributeError whenever it has a node to learn (and otherwise erases the tables of the network), so BDe, BDeu and K2 have a value only for the network without nodes; mmpc raises on all data with a column, also with its missing imports restored and whatever the tests answer; lambda_iamb never returns (TypeError on all proper data); predict returns only on data without rows.", "quantifier": "all networks, data sets, node lists, targets, test outcomes", "why_tests_cant": "That a call never returns ranges over every input and every outcome of the tests.", "anchors": ["pyBN/learning/parameter/mle.py: mle_fast", "pyBN/learning/structure/score/bayes_scores.py: BDe, BDeu, K2", "pyBN/learning/structure/hybrid/mmpc.py: mmpc", "pyBN/learning/structure/constraint/lambda_iamb.py: lambda_iamb", "pyBN/classification/classification.py: predict"]}
{"id": "C197", "title": "Evidence that the graph declares irrelevant does not change an answer", "statement": "For every well-formed acyclic network with normalised non-negative tables: sets of nodes that the graph d-separates given S are conditionally independent given S under the joint probability of the tables. Consequently, if marginal_ve_e answers a query for a target both with evidence ev and with additional evidence on nodes that ev d-separates from the target, the two answer arrays have the same length and are proportional: entry i of one times the sum of the other differs from the converse by at most (number of values + 1)/9000, which is due to the rounding to four digits.", "quantifier": "all networks, targets, evidence dicts, additional evidence, node orders and set iteration orders", "why_tests_cant": "d-separation quantifies over all paths of all graphs and the independence over all tables; tests check a handful of three-node networks", "anchors": ["pyBN/inference/marginal_exact/ve_marginal.py:marginal_ve_e", "pyBN/classes/bayesnet.py:BayesNet"]}
{"id": "C198", "title": "The Markov blanket shields a node from the rest of the network", "statement": "For every well-formed acyclic network with normalised tables, the list that markov_blanket(bn) returns for a node x makes x independent, under the joint probability of the network, of all nodes outside the list taken together.", "quantifier": "all networks and all nodes", "why_tests_cant": "the property is about the probability of every assignment of every network; a test can only compare the returned lists for example graphs", "anchors": ["pyBN/utils/markov_blanket.py:markov_blanket"]}
{"id": "C199", "title": "Learning from a faithful network with error-free tests", "statement": "Take a network over the columns 0..n-1 that is faithful to its graph, and independence tests that answer according to the true conditional independences of the network. Then these are perfect tests in the sense of C179-C183 (they agree with d-separation); every Markov blanket that Grow-Shrink returns is the true blanket of the column, and if all are returned the undirected graph it continues with has exactly the edges of the network.", "quantifier": "all faithful networks, all error-free tests, all numbers of loop iterations", "why_tests_cant": "it relates the learner to the probability distribution of an arbitrary network, over all conditioning sets", "anchors": ["pyBN/learning/structure/constraint/grow_shrink.py:gs", "pyBN/learning/structure/constraint/grow_shrink.py:resolve_markov_blanket"]}
{"id": "C200", "title": "Only the ancestors of a query matter", "statement": "Two well-formed acyclic networks with normalised tables that agree on the parents, values and tables of all ancestors of the target and of the evidence nodes (but may differ in all other nodes) never give different answers to marginal_ve_e: if both return, the arrays are equal. If they also have the same graph, then either both return the same array or both raise the same error.", "quantifier": "all pairs of networks, targets, evidence, and iteration orders", "why_tests_cant": "ranges over all networks and all changes of barren nodes", "anchors": ["pyBN/inference/marginal_exact/ve_marginal.py:marginal_ve_e"]}
{"id": "C201", "title": "Edits that name unknown nodes", "statement": "remove_edge, reverse_arc, set_cpt, set_parents, set_values and the accessors children, parents, values and cpt raise KeyError and leave every object as it was when they name a node (or an arc leaving a node) for which the network holds no entry; set_cpt, set_parents, set_values, add_node and the accessors raise in no other case. The arc edits are not atomic: when the second entry they need is missing they raise KeyError after the children list was already changed.", "quantifier": "every network object (also one whose dictionaries are incomplete, as add_node leaves them) in every heap, every edit", "why_tests_cant": "A test tries a few unknown names; that nothing at all has changed after the exception is a statement about all objects that may share lists with the network.", "anchors": ["pyBN/classes/bayesnet.py: BayesNet.add_node, add_edge, remove_edge, reverse_arc, set_cpt, set_parents, set_values, children, parents, values, cpt"]}
{"id": "C202", "title": "Factor.sepset is the set of common variables", "statement": "f.sepset(g) holds exactly the variables occurring in both scopes, and is the same set as g.sepset(f); the product of f and g has len(f.scope)+len(g.scope)-len(sepset) variables, and its table length times the number of assignments of the sepset is the product of the two table lengths.", "quantifier": "every pair of well-formed factors over the same cardinalities, every hash order", "why_tests_cant": "Scopes and cardinalities are unbounded.", "anchors": ["pyBN/classes/factor.py: Factor.sepset, multiply_factor"]}
{"id": "C203", "title": "The conditional mutual information of sampled data converges", "statement": "If n rows are drawn from a network with random_sample, then almost surely mi_test(data[:,(u,v,w)], test=False) comes within the rounding (5e-5) plus any given epsilon of the conditional mutual information of u and v given w, computed from the joint distribution of the network with the smoothing constants of the code, for all large n.", "quantifier": "every well-formed network with parents before children and positive probabilities, every three different nodes, every hash order, every epsilon > 0; almost every sequence of random numbers", "why_tests_cant": "Convergence with probability one is a statement about infinitely many random rows.", "anchors": ["pyBN/utils/independence_tests.py: mi_test", "pyBN/utils/random_sample.py: random_sample"]}
{"id": "C204", "title": "The conditional test tells conditional independence from dependence in the long run", "statement": "On n rows drawn from a network, for all large n, mi_test(data[:,(u,v,w)]) gives a p-value above 0.05 with positive probability when u and v are independent given w, and a p-value going to 0 when they are not.", "quantifier": "every such network, every three different nodes", "why_tests_cant": "It is about the limit of infinitely many samples, with probability one.", "anchors": ["pyBN/utils/independence_tests.py: mi_test", "pyBN/inference/marginal_approx/forward_sample.py", "pyBN/utils/random_sample.py: random_sample"]}
{"id": "C205", "title": "The conditional test rejects in the long run, whether or not it should", "statement": "If u and v are conditionally independent given w, or if no combination of values of the three is rarer than 1/200, the p-value of mi_test(data[:,(u,v,w)]) on n sampled rows is, almost surely, exactly 0 for all large n, so the test answers dependent at every level; if no row of values of all nodes is rarer than 1/200, this holds for all tests with one or more conditioning columns at once.", "quantifier": "every such network with two or more values per node, every choice of distinct columns, every level alpha, every hash order", "why_tests_cant": "It is about the limit of infinitely many samples and all column choices.", "anchors": ["pyBN/utils/independence_tests.py: mi_test", "pyBN/inference/marginal_approx/forward_sample.py", "pyBN/utils/random_sample.py: random_sample"]}
{"id": "C206", "title": "pc learns no edge in the long run", "statement": "On n rows drawn from a network in which no row of values is rarer than 1/200 (whatever its edges), almost surely, for all large n, pc returns a network over all variables without any edge, at every level alpha.", "quantifier": "every such network with two or more values per node, every level, every hash order; almost every sequence of random numbers", "why_tests_cant": "It is about the limit of infinitely many samples, with probability one.", "anchors": ["pyBN/utils/independence_tests.py: mi_test", "pyBN/inference/marginal_approx/forward_sample.py", "pyBN/utils/random_sample.py: random_sample", "pyBN/learning/structure/constraint/path_condition.py: pc"]}
{"id": "C207", "title": "The constraint-based learners find the Markov blankets in the long run", "statement": "On n rows drawn from a network, almost surely, for all large n, gs and iamb find the Markov blanket of every node and pc the undirected edges of the network.", "quantifier": "every network with positive probabilities, every level; almost every sequence of random numbers", "why_tests_cant": "It is about the limit of infinitely many samples, with probability one.", "anchors": ["pyBN/utils/independence_tests.py: mi_test", "pyBN/utils/random_sample.py: random_sample", "pyBN/learning/structure/constraint/grow_shrink.py: gs", "pyBN/learning/structure/constraint/iamb.py: iamb", "pyBN/learning/structure/constraint/path_condition.py: pc"]}
{"id": "C208", "title": "gs finds everything in the long run", "statement": "On n rows drawn from a network in which no row of values is rarer than 1/200, almost surely, for all large n, the Markov blanket gs computes for a node that depends on some other node is the set of all other nodes, at every level; if every two nodes are dependent, gs returns a network without nodes whose edge dictionary holds both directions of every pair.", "quantifier": "every such network with two or more values per node, every level alpha > 0, every hash order; almost every sequence of random numbers", "why_tests_cant": "It is about the limit of infinitely many samples, with probability one.", "anchors": ["pyBN/utils/independence_tests.py: mi_test", "pyBN/utils/random_sample.py: random_sample", "pyBN/learning/structure/constraint/grow_shrink.py: gs", "pyBN/utils/markov_blanket.py: resolve_markov_blanket", "pyBN/utils/orient_edges.py: orient_edges_MB"]}
{"id": "C209", "title": "iamb keeps half of the nodes in the long run", "statement": "On n rows drawn from a network with m nodes, no row of values rarer than 1/200 and every two nodes dependent, almost surely, for all large n, iamb gives every node a blanket of exactly (m-1)/2 (rounded down) other nodes, at every level and whatever the edges; for m = 3 it returns the arcs 0->1 and 0->2.", "quantifier": "every such network with two or more values per node, every level alpha > 0, every hash order; almost every sequence of random numbers", "why_tests_cant": "It is about the limit of infinitely many samples, with probability one.", "anchors": ["pyBN/utils/independence_tests.py: mi_test", "pyBN/utils/random_sample.py: random_sample", "pyBN/learning/structure/constraint/iamb.py: iamb", "pyBN/utils/orient_edges.py: orient_edges_gs2"]}
{"id": "C210", "title": "The score-based searches run from the first statement to the end on every array", "statement": "On every rectangular array of natural numbers with at least one row, for every metric string (known or not), iteration limit, debug flag and restriction, hc and tabu (with k >= 5) return a network over the columns without directed cycle, including the estimation and scoring of the arcless network they begin with; that prelude never fails, so hc_rr behaves as its search alone, and every score it asks for is computed without exception. On an array with columns but no rows all three raise ValueError.", "quantifier": "every array, metric, limit, debug flag, restriction, hash order and cycle finder that finds cycles", "why_tests_cant": "A test covers one array; the claim is over all arrays and all hash orders.", "anchors": ["pyBN/learning/structure/score/hill_climbing.py: hc", "pyBN/learning/structure/score/tabu.py: tabu", "pyBN/learning/structure/score/random_restarts.py: hc_rr", "pyBN/learning/parameter/mle.py: mle_estimator", "pyBN/learning/structure/score/info_scores.py: info_score"]}
{"id": "C211", "title": "Estimators on arrays without rows", "statement": "On an array without rows, for every network with at least one node: mle_estimator raises ValueError; with counts=True it gives every node an empty value list and an empty table; bayes_estimator raises ZeroDivisionError.", "quantifier": "every network whose nodes are column numbers", "why_tests_cant": "It is over all networks.", "anchors": ["pyBN/learning/parameter/mle.py: mle_estimator", "pyBN/learning/parameter/bayes.py: bayes_estimator"]}
{"id": "C212", "title": "The metric argument is ignored", "statement": "hc, tabu and hc_rr return the same result (or raise the same exception) whatever string is passed as metric: AIC, BIC, LL, or one that names no metric.", "quantifier": "every rectangular array (with or without rows), every pair of strings, all other arguments", "why_tests_cant": "It relates two runs on all inputs.", "anchors": ["pyBN/learning/structure/score/hill_climbing.py: hc", "pyBN/learning/structure/score/tabu.py: tabu", "pyBN/learning/structure/score/random_restarts.py: hc_rr"]}
{"id": "C213", "title": "mdbn never returns", "statement": "mdbn(data, f_cols, c_cols) never returns a network: whenever both of its hill-climbing searches return, it raises TypeError.", "quantifier": "every array, every choice of columns, every sequence of random choices", "why_tests_cant": "It is over all inputs and random choices.", "anchors": ["pyBN/learning/structure/mdbn.py: mdbn, bridge"]}
{"id": "C214", "title": "hc recovers the structure in the long run", "statement": "On n rows drawn from a network, almost surely, for all large n, hc returns a network with the arcs (or at least the adjacencies) of the sampled one.", "quantifier": "every network, almost every sequence of random numbers", "why_tests_cant": "It is about the limit of infinitely many samples, with probability one.", "anchors": ["pyBN/learning/structure/score/hill_climbing.py: hc", "pyBN/utils/random_sample.py: random_sample"]}
{"id": "C215", "title": "hc returns a spanning tree in the long run, whatever the network", "statement": "On n rows drawn from a network of two-valued nodes none of which determines another (mutual information below entropy by more than 0.0001), almost surely, for all large n, hc with more iterations than nodes returns a directed tree over all nodes: one node without parent, every other with exactly one. The arcs of the network do not matter; the nodes may all be independent.", "quantifier": "every such network; almost every sequence of random numbers; every hash order, metric and debug flag", "why_tests_cant": "It is about the limit of infinitely many samples, with probability one.", "anchors": ["pyBN/learning/structure/score/hill_climbing.py: hc", "pyBN/utils/random_sample.py: random_sample", "pyBN/utils/independence_tests.py: mutual_information"]}
{"id": "C216", "title": "The tree hc returns is the greedy one for entropy minus mutual information", "statement": "On 0/1 data in which every column's (rounded) entropy exceeds its mutual information with every other column, if repeatedly choosing the arc into a parentless node, closing no cycle, with the largest difference (entropy of the child minus mutual information of child and parent) never meets a tie, then hc returns exactly the chosen arcs - it prefers the least informative parents. In the long run, on samples of a network, these are the arcs chosen by the differences of the network; with two nodes it is the single arc towards the node with the larger entropy.", "quantifier": "every such array; every such network with gaps above 0.0002 and almost every sequence of random numbers; every hash order, metric, debug flag and cycle finder", "why_tests_cant": "It is over all data, and about the limit of infinitely many samples.", "anchors": ["pyBN/learning/structure/score/hill_climbing.py: hc", "pyBN/utils/random_sample.py: random_sample", "pyBN/utils/independence_tests.py: mutual_information"]}
{"id": "C217", "title": "MLE on another structure learns the true conditionals", "statement": "Rows drawn by random_sample from one network and handed to mle_estimator with a structure over the same nodes that may have quite different arcs (and list the nodes in another order, as long as the node at position v has as many values as node v): almost surely, for every tolerance and all large sample sizes, the learning succeeds, keeps the nodes and parents of the given structure, and every table entry is within 5e-6 + tolerance of the probability of the node's value given its parents in the *given* structure, computed from the network the rows came from (wherever those parent values have positive probability).", "quantifier": "all discrete networks that can be sampled, all other structures over the same nodes, all hash orders and buffer contents, almost every sequence of uniform random numbers, all tolerances, all large sample sizes", "why_tests_cant": "a statement about almost every infinite random sequence and all sufficiently large samples, for every pair of structures", "anchors": ["pyBN/utils/random_sample.py: random_sample", "pyBN/learning/parameter/mle.py: mle_estimator"]}
{"id": "C218", "title": "Extra arcs do no harm in the long run", "statement": "If the structure handed to mle_estimator contains all arcs of the network the rows were drawn from, and possibly more, all going forward in the node order, and every combination of parent values is possible, then almost surely, for every tolerance and all large sample sizes, the learned tables are within 5e-6 + tolerance of the true ones (the extra parents make no difference), every query linked in the structure is answered by marginal_ve_e within drift + 5e-5 + tolerance of the truth, and every ve_map explanation is within 2(drift + tolerance) of the most probable one.", "quantifier": "all networks, all supersets of their arcs along the node order, all targets and evidence, almost every random sequence, all large sample sizes", "why_tests_cant": "limits over almost every random sequence for all queries", "anchors": ["pyBN/utils/random_sample.py: random_sample", "pyBN/learning/parameter/mle.py: mle_estimator", "pyBN/inference/marginal_exact/ve_marginal.py: marginal_ve_e", "pyBN/inference/map_exact/ve_map.py: ve_map"]}
{"id": "C219", "title": "What naive_bayes learns in the long run", "statement": "Rows drawn by random_sample from any network and handed to naive_bayes with a class column (mle estimator), every column having as many values as the column at its node's position: almost surely, for every tolerance and all large sample sizes, the classifier's class table is within 5e-6 + tolerance of the class's true distribution and every other column's table within 5e-6 + tolerance of the true conditional distribution of the column given the class, whatever dependences between the columns the classifier ignores.", "quantifier": "all networks that can be sampled, all class columns, all hash orders, almost every random sequence, all large sample sizes", "why_tests_cant": "a limit statement over almost every random sequence", "anchors": ["pyBN/learning/structure/naive/naive_bayes.py: naive_bayes", "pyBN/learning/parameter/mle.py: mle_estimator", "pyBN/utils/random_sample.py: random_sample"]}
{"id": "C220", "title": "How many rows mle_estimator needs", "statement": "Draw n rows with random_sample and fit any structure over the same nodes with mle_estimator. Let gamma be a lower bound on the probability of every value of every node and of every combination of values of the parents in the structure, and eps < gamma. With independent uniform random numbers, except with probability at most 2 K exp(-2 n eps^2), K being the number of counts the estimator takes, sampling and fitting both succeed, nodes and parents are kept, and every table entry is within 5e-6 + (2 eps + 1e-7/n)/(gamma - eps) of the true conditional probability of the node given those parents.", "quantifier": "all discrete networks that can be sampled, all structures over the same nodes, all n >= 1, eps, gamma, hash orders and buffer contents", "why_tests_cant": "a probability over infinitely many random streams, for every network and every sample size", "anchors": ["pyBN/learning/parameter/mle.py:mle_estimator", "pyBN/utils/random_sample.py:random_sample"]}
{"id": "C221", "title": "How many rows exact inference on a learned network needs", "statement": "With the rows of C220 and a structure containing every arc of the network (possibly more, all forward), for any delta at least the distance of C220: except with probability at most 2 K exp(-2 n eps^2), learning succeeds with every entry within delta of the true table, every query that links the structure is answered by marginal_ve_e within 5e-5 + drift(delta) of the true probability of the value together with the evidence, and the explanation ve_map returns has a true probability within 2 drift(delta) of the best.", "quantifier": "all discrete networks that can be sampled, all such structures, all queries and evidence, all n >= 1, eps, gamma, delta, hash orders", "why_tests_cant": "a probability over infinitely many random streams of an end-to-end pipeline, for every network, query and sample size", "anchors": ["pyBN/learning/parameter/mle.py:mle_estimator", "pyBN/inference/marginal_exact/ve_marginal.py:marginal_ve_e", "pyBN/inference/map_exact/ve_map.py:ve_map", "pyBN/utils/random_sample.py:random_sample"]}
{"id": "C222", "title": "How many rows bayes_estimator needs", "statement": "As C220 for bayes_estimator with a fixed positive equiv_sample on the structure of the network: except with probability at most 2 K exp(-2 n eps^2) learning succeeds and every entry is within 5e-6 + (2 eps + (equiv/J)/n)/(gamma - eps) of the true table, J being the number of combinations of values of the node's parents.", "quantifier": "all discrete networks that can be sampled, all equiv_sample > 0, all n >= 1, eps, gamma, hash orders and buffer contents", "why_tests_cant": "a probability over infinitely many random streams, for every network, prior and sample size", "anchors": ["pyBN/learning/parameter/bayes.py:bayes_estimator", "pyBN/utils/random_sample.py:random_sample"]}
{"id": "C223", "title": "How many rows naive_bayes needs", "statement": "Draw n rows from any network and hand them to naive_bayes with a class column (columns with as many values as the column at their node's position). Let gamma <= 1 bound from below the probability of every value of every column and eps < gamma. Except with probability at most 2 K exp(-2 n eps^2) this succeeds, the class has no parents and every other column exactly the class as parent, and every entry is within 5e-6 + (2 eps + 1e-7/n)/(gamma - eps) of the true distribution of the class or of the column given the class.", "quantifier": "all discrete networks that can be sampled, all class columns, all n >= 1, eps, gamma, hash orders and buffer contents", "why_tests_cant": "a probability over infinitely many random streams, for every network and sample size", "anchors": ["pyBN/learning/structure/naive/naive_bayes.py:naive_bayes", "pyBN/utils/random_sample.py:random_sample"]}
{"id": "C224", "title": "How many samples lw_sample needs", "statement": "For evidence of probability p > eps and independent uniform random numbers, except with probability at most 4 exp(-2 n eps^2), lw_sample(bn, n, evidence) succeeds and the number it returns for v = x is within 5e-5 + 2 eps/(p - eps) of P(v = x | evidence).", "quantifier": "all discrete networks listed parents first, all legal evidence of probability above eps, all nodes and values, all n >= 1 and eps", "why_tests_cant": "a probability over infinitely many random streams, for every network, evidence and sample size", "anchors": ["pyBN/inference/marginal_approx/lw_sample.py:lw_sample"]}
{"id": "C225", "title": "How many sweeps gibbs_sample needs", "statement": "For burn + 1 < n and independent uniform random numbers, except with probability at most 2 exp(-2 (n - burn - 1) eps^2), gibbs_sample(bn, n, burn) succeeds and the number it returns for v = x is within 5e-5 + eps + 1/(n - burn) of the exact marginal P(v = x).", "quantifier": "all discrete networks listed parents first, all nodes and values, all n, burn and eps", "why_tests_cant": "a probability over infinitely many random streams, for every network and number of sweeps", "anchors": ["pyBN/inference/marginal_approx/gibbs_sample.py:gibbs_sample"]}
{"id": "C226", "title": "Sharing and in-place changes never affect exact inference", "statement": "Every factor operator changes its left operand in place, and a product can leave two factors with one and the same card dictionary. Still marginal_ve_e and ve_map (with and without prob) return or raise exactly what they would if each operation made a new factor, whatever factor objects the program already has; so on a well-formed network the numbers returned are the exact (rounded) sums of the joint and the assignment returned is a most probable one.", "quantifier": "all networks, targets, evidence, hash and evidence orders, all program states (any number of factor objects, shared in any way)", "why_tests_cant": "aliasing damage shows only for particular shapes of scopes and particular orders of elimination", "anchors": ["pyBN/classes/factor.py:Factor.multiply_factor", "pyBN/classes/factorization.py:Factorization", "pyBN/inference/marginal_exact/ve_marginal.py:marginal_ve_e", "pyBN/inference/map_exact/ve_map.py:ve_map"]}
{"id": "C227", "title": "Inference does not disturb the factors a program already has", "statement": "After marginal_ve_e or ve_map returns, every factor object the program had before reads exactly as before, however many owners share it or its list and dictionaries.", "quantifier": "all networks, queries, hash orders and all program states", "why_tests_cant": "a write through a shared dictionary can appear anywhere in the program's state", "anchors": ["pyBN/inference/marginal_exact/ve_marginal.py:marginal_ve_e", "pyBN/inference/map_exact/ve_map.py:ve_map", "pyBN/classes/factorization.py:Factorization"]}
{"id": "C228", "title": "Factorizations do not interfere with one another", "statement": "In a program that makes any number of Factorization objects, of one network or of several, and calls - (evidence), / (sum out), // (max out) and refresh on them in any interleaving without exception, each of them ends up (factors, map_factors, map_assignment) exactly as if only its own calls had been made; and no other factor object of the program is changed.", "quantifier": "all programs of such statements, all networks, hash orders and initial program states", "why_tests_cant": "all interleavings of all histories", "anchors": ["pyBN/classes/factorization.py:Factorization", "pyBN/classes/factor.py:Factor"]}
{"id": "C229", "title": "Factor operators leave their left operand alone", "statement": "Evaluating f * g, f - (rv, val), f / rv or f // rv gives a result and leaves f as it was.", "quantifier": "all factors and operands, all program states", "why_tests_cant": "must hold for every operand and every sharing of lists and dictionaries", "anchors": ["pyBN/classes/factor.py:Factor.__mul__", "pyBN/classes/factor.py:Factor.__sub__", "pyBN/classes/factor.py:Factor.__div__", "pyBN/classes/factor.py:Factor.__floordiv__"]}
{"id": "C230", "title": "A factor operator is a method call on its left operand", "statement": "The value of f * g, f - (rv, val), f / rv or f // rv is f itself, and f then reads as what the corresponding method computes from what was read in f (and g) before, even if f and g are one object or share dictionaries.", "quantifier": "all factors and operands, all program states in which references are sound", "why_tests_cant": "all sharings", "anchors": ["pyBN/classes/factor.py:Factor.__mul__", "pyBN/classes/factor.py:Factor.__sub__", "pyBN/classes/factor.py:Factor.__div__", "pyBN/classes/factor.py:Factor.__floordiv__"]}
{"id": "C231", "title": "A saved and reloaded network answers like the original", "statement": "Write a well-formed acyclic network (string node names) with write_bn and load it with read_bn. To every legal query marginal_ve_e gives on the loaded network exactly the answer it gives on the original, or raises NameError on both, and ve_map returns on the loaded network an assignment exactly as probable as the one returned on the original.", "quantifier": "all storable networks, all float formats, all hash orders of the writing, the reading and the querying process, all targets and evidence", "why_tests_cant": "read_bn lists the nodes in another order than the original and the order of elimination depends on it; only a proof shows that no network and no query is sensitive to it", "anchors": ["pyBN/io/write.py:write_json", "pyBN/io/read.py:read_json", "pyBN/inference/marginal_exact/ve_marginal.py:marginal_ve_e"]}
{"id": "C232", "title": "A network that can be sampled can still be sampled after saving and loading", "statement": "If forward_sample succeeds on a network, it succeeds on the network read back from the file write_bn made of it.", "quantifier": "all storable networks, sample counts and random draws", "why_tests_cant": "small test networks are chains and trees, for which it holds", "anchors": ["pyBN/io/read.py:read_json", "pyBN/utils/graph.py:topsort", "pyBN/inference/marginal_approx/forward_sample.py:forward_sample"]}
{"id": "C233", "title": "Exactly when a reloaded network can be sampled", "statement": "A reloaded network lists its nodes in the order topsort gives on its edges. If that order puts all parents first, every forward_sample call on it succeeds; otherwise every call raises KeyError.", "quantifier": "all storable networks with nearly normalised rows, sample counts and random draws, hash orders", "why_tests_cant": "the claim is about every call and every draw", "anchors": ["pyBN/io/read.py:read_json", "pyBN/utils/graph.py:topsort", "pyBN/inference/marginal_approx/forward_sample.py:forward_sample"]}
{"id": "C234", "title": "Exactly which edges make_chordal adds", "statement": "If the moral graph is not chordal, make_chordal eliminates the non-isolated nodes in an order of increasing number of moral neighbours, and the returned graph joins two different nodes exactly if the moral graph has a walk between them all of whose inner nodes come earlier in that order than both of them. With a supplied node order and edge list the same holds for that order and those edges.", "quantifier": "all well-formed networks, all chordality checkers, all hash orders, all supplied orders without repetition and edge lists", "why_tests_cant": "the fill-in is defined by an elimination process; the characterisation by walks ranges over all graphs", "anchors": ["pyBN/utils/graph.py:make_chordal"]}
{"id": "C235", "title": "Answers to different marginal queries fit together", "statement": "If marginal_ve_e answers a query, and also answers it with one more observed variable for each of that variable's values, the latter answers add up to the former up to rounding (half a unit of the fourth decimal for each number), and no entry grows by observing more. The entry for t = x given u = y (and other evidence) equals exactly the entry for u = y given t = x.", "quantifier": "all networks, targets, evidence, extra variables and values, hash orders of the several calls", "why_tests_cant": "each call chooses its own elimination order; the claim relates any two or more calls", "anchors": ["pyBN/inference/marginal_exact/ve_marginal.py:marginal_ve_e"]}
{"id": "C236", "title": "More evidence never gives a more probable explanation", "statement": "If evidence is added, the explanation ve_map returns is at most as probable as before; if the added evidence is what the earlier explanation said, it is exactly as probable.", "quantifier": "all networks with non-negative tables, all evidence and larger evidence, hash orders of both calls", "why_tests_cant": "relates two runs of the algorithm on all inputs", "anchors": ["pyBN/inference/map_exact/ve_map.py:ve_map"]}
{"id": "C237", "title": "Adding or removing an arc leaves a usable network", "statement": "After add_edge(u, v) of a new arc between two known nodes, or remove_edge(u, v) of an existing arc, on a well-formed network, every table has again one number for each value of its node and of that node's parents, so that the network can be sampled and queried. (False of the code: both methods leave the table of v as it was, so the sizes fit afterwards exactly if u has a single value.)", "quantifier": "all well-formed networks and all pairs of nodes", "why_tests_cant": "for all networks; a structural test looks at V, E and the parents and does not notice the table", "anchors": ["pyBN/classes/bayesnet.py:BayesNet.add_edge", "pyBN/classes/bayesnet.py:BayesNet.remove_edge"]}
{"id": "C238", "title": "Sampling from a network with a table of the wrong length never returns", "statement": "If some node's table does not have one number for each value of the node and its parents, no call of forward_sample or gibbs_sample asking for at least one sample returns a result, and none of lw_sample unless that node is observed; in particular none of forward_sample after add_edge of a new arc, or remove_edge, from a node with two or more values.", "quantifier": "all networks with any one table too long or too short, all sample sizes, all sequences of random numbers, all evidence, all burn-in lengths", "why_tests_cant": "for every stream of random numbers and every way the table can be wrong", "anchors": ["pyBN/inference/marginal_approx/forward_sample.py:forward_sample", "pyBN/inference/marginal_approx/gibbs_sample.py:gibbs_sample", "pyBN/inference/marginal_approx/lw_sample.py:lw_sample", "pyBN/classes/factor.py:Factor.reduce_factor"]}
{"id": "C239", "title": "Querying a network with tables that are too long silently uses their first entries", "statement": "If every table has a whole multiple of the number of entries it should have (as remove_edge leaves it), marginal_ve_e answers, or raises, exactly as if every table were cut to its first entries. So after remove_edge(u, v), with u the last parent of v, an answered query gives the sums of the joint in which v behaves as it did before when u has its first value.", "quantifier": "all such networks with at least two nodes, all targets, all evidence, all hash orders", "why_tests_cant": "the extra entries take part in every product and summation on the way, in every elimination order; that none reaches the answer is an invariant of all runs", "anchors": ["pyBN/inference/marginal_exact/ve_marginal.py:marginal_ve_e", "pyBN/classes/factor.py:Factor.multiply_factor", "pyBN/classes/factor.py:Factor.sumout_var", "pyBN/classes/factor.py:Factor.reduce_factor"]}
{"id": "C240", "title": "Querying a network with a table that is too short never returns", "statement": "If some node's table has fewer numbers than its node and parents ask for, no call of marginal_ve_e on the network (with at least two nodes) returns a result, whatever is asked for and whatever is observed; in particular none after add_edge of a new arc from a node with two or more values.", "quantifier": "all networks with a table too short, all targets, all evidence, all hash orders", "why_tests_cant": "non-termination or an exception in every elimination order cannot be observed by running", "anchors": ["pyBN/inference/marginal_exact/ve_marginal.py:marginal_ve_e", "pyBN/classes/factor.py:Factor.multiply_factor", "pyBN/classes/bayesnet.py:BayesNet.add_edge"]}
{"id": "C241", "title": "Which variables a Factorization keeps together", "statement": "After any sequence of `- (rv, val)`, `/ rv`, `// rv` and refresh() on Factorization(bn, nodes), exceptions being caught, two variables still present are mentioned by a common factor exactly if one can walk from one to the other, each step joining two members of the family (node and parents) of one of the nodes, passing only through variables that were summed or maximised out since the last refresh; fixing a variable never joins others. Every factor's table has exactly one entry per combination of the values of its scope.", "quantifier": "all networks, node lists, sequences of calls, hash orders", "why_tests_cant": "the scopes depend on the whole history of calls; the characterisation ranges over all graphs and elimination orders", "anchors": ["pyBN/classes/factorization.py:Factorization.sum_product_eliminate_var", "pyBN/classes/factorization.py:Factorization.max_product_eliminate_var", "pyBN/classes/factorization.py:Factorization.__sub__"]}
{"id": "C242", "title": "The size of the tables variable elimination builds", "statement": "Summing or maximising out a further variable v replaces the factors that mention v by one new factor, whose scope is exactly the variables reachable from v through variables eliminated before; its table has one entry per combination of their values. Summing all variables out in a given order, the factor made for v therefore mentions exactly the later variables joined to v in make_chordal(bn, order, moralized_edges).", "quantifier": "all networks, histories, orders and variables, all chordality checkers and hash orders", "why_tests_cant": "time and memory of exact inference for every network and order", "anchors": ["pyBN/classes/factorization.py:Factorization", "pyBN/utils/graph.py:make_chordal"]}
{"id": "C243", "title": "ve_map on a table that is too short", "statement": "If one node's table has fewer numbers than its values and its parents' values call for, then on a network of at least two nodes ve_map(prob=True) never returns an answer, whatever is observed; and ve_map without prob does not return as long as some parent of that node is not observed. In particular after bn.add_edge(u,v) of a new arc from a node with two or more values, no form of ve_map (assignment, prob=True, or a single target) returns, whatever is observed. With no unobserved parent the short table can go unnoticed by the assignment form.", "quantifier": "all networks of the stated shape, all tables too short at some node, all evidence, all new arcs, all iteration orders of sets", "why_tests_cant": "A test tries one network, one short table and one evidence set; the claim is that no elimination order and no evidence makes the call succeed.", "anchors": ["pyBN/inference/map_exact/ve_map.py:ve_map", "pyBN/classes/factor.py:Factor.multiply_factor", "pyBN/classes/factor.py:Factor.reduce_factor", "pyBN/classes/bayesnet.py:BayesNet.add_edge"]}
{"id": "C244", "title": "Exact inference depends on the model, not on how it is written down", "statement": "If two networks describe the same model - after renaming nodes and values they have the same nodes, every node has the same values and parents and the same conditional probabilities, while nodes, parents and values may be listed in any order and the tables laid out accordingly - then marginal_ve_e gives the same number for every value of every target under every legal evidence and raises NameError on the same queries; ve_map(prob=True) reports the same probability and raises on the same evidence; ve_map returns equally probable assignments, and the same one whenever a single assignment is most probable.", "quantifier": "all pairs of well-formed networks related by any renaming and reordering, all targets, all legal evidence, all iteration orders of sets and dicts", "why_tests_cant": "Tests compare one network with one rewritten copy; the layout arithmetic (strides, odometers, elimination order) changes completely with each of the factorially many listings.", "anchors": ["pyBN/inference/marginal_exact/ve_marginal.py:marginal_ve_e", "pyBN/inference/map_exact/ve_map.py:ve_map", "pyBN/classes/factor.py:Factor.__init__", "pyBN/classes/factor.py:Factor.multiply_factor"]}
{"id": "C245", "title": "The law of a sample depends on the model, not on how it is written down", "statement": "If two networks describe the same model (as in C244) with tables that are distributions, and both list parents before children, then random_sample returns any given sequence of rows with the same probability on both (rows read as named values), and forward_sample has the same expected estimate for every value of every node, whatever the numbers of samples.", "quantifier": "all pairs of networks related by renaming and reordering, all numbers of samples, all sequences of rows, all contents of uninitialised memory, all iteration orders", "why_tests_cant": "A law over continuous uniform draws cannot be observed by a test; it can only be estimated for one network.", "anchors": ["pyBN/utils/random_sample.py:random_sample", "pyBN/inference/marginal_approx/forward_sample.py:forward_sample"]}
{"id": "C246", "title": "The order of the rows of a data set never matters", "statement": "Rearranging the rows of a data set changes no answer: mi_test, are_independent, mutual_information, entropy, mb_fitness and EmpiricalDistribution give the same value or the same exception; mle_estimator (counts or network), bayes_estimator and naive_bayes return the same result; gs, pc and iamb run on the data's own tests, and hc, tabu and hc_rr (with the same random draws) return the same network; replace_strings and discretize return the same rows rearranged, with the same value lists.", "quantifier": "all data sets, all rearrangements of their rows, all arguments, all iteration orders of sets and dictionaries (the same in both runs)", "why_tests_cant": "The number of rearrangements is factorial in the number of rows, and the statement ranges over every data set and every argument.", "anchors": ["pyBN/utils/independence_tests.py:mi_test", "pyBN/utils/independence_tests.py:are_independent", "pyBN/utils/independence_tests.py:mutual_information", "pyBN/learning/parameter/mle.py:mle_estimator", "pyBN/learning/parameter/bayes.py:bayes_estimator", "pyBN/learning/structure/naive/naive_bayes.py:naive_bayes", "pyBN/learning/structure/score/hill_climbing.py:hc", "pyBN/utils/data.py:replace_strings", "pyBN/utils/discretize.py:discretize"]}
{"id": "C247", "title": "mle_estimator maximises the likelihood, up to rounding", "statement": "For data of N <= 100000 rows, no network of the same structure and values (with non-negative tables whose rows sum to one) gives the data a likelihood larger than that of the network mle_estimator returns by more than the factor (1 - N/100000)^(-N*|V|), the effect of rounding the tables; and, whatever N, none gives more than the relative frequencies from which mle_estimator rounds its tables.", "quantifier": "all networks, all rectangular data sets, all competing parameters of the same shape, all iteration orders", "why_tests_cant": "The claim compares the result with every other choice of parameters, an infinite set, for every data set.", "anchors": ["pyBN/learning/parameter/mle.py:mle_estimator"]}
{"id": "C248", "title": "Rare observations make the training data impossible", "statement": "If in some row of the data the value of a node occurs, among the rows with the same values of its parents, at most once in 200000 times, mle_estimator gives it probability exactly 0: the learned network assigns probability 0 to that row and to the data it was learned from.", "quantifier": "all networks, all rectangular data sets, all rows and nodes, all iteration orders", "why_tests_cant": "It needs data sets of more than 200000 rows and holds for every such set.", "anchors": ["pyBN/learning/parameter/mle.py:mle_estimator"]}
{"id": "C249", "title": "Asking mle_estimator for counts, or an exception inside it, wipes the network", "statement": "If the data have at least as many columns as there are nodes asked for, then after mle_estimator(bn, data, nodes, counts=True), and after mle_estimator(bn, data, nodes) whenever it raises (for instance because a node's name is not a column number), bn has the values found in the data and tables that consist of zeros only; when all nodes were asked for, every complete assignment then has probability 0 and marginal_ve_e answers with zeros.", "quantifier": "all networks, all rectangular data sets, all lists of nodes, all ways to fail, all iteration orders", "why_tests_cant": "Tests look at the returned counts or the exception; what is left in the network has to be described for every input and every point of failure.", "anchors": ["pyBN/learning/parameter/mle.py:mle_estimator", "pyBN/inference/marginal_exact/exact_ve_e.py:marginal_ve_e"]}
{"id": "C250", "title": "With too few columns the estimators raise and leave the network half updated", "statement": "With fewer columns than nodes asked for, mle_estimator (with and without counts) and bayes_estimator raise IndexError; by then the first nodes have the values of the columns there are, while all tables and the remaining nodes are unchanged. If that makes some table too short for its new values, marginal_ve_e on the network never returns an answer.", "quantifier": "all networks, all rectangular data sets with too few columns, all lists of nodes, all later queries, all iteration orders", "why_tests_cant": "It describes the state after an exception for every input, and that every later query fails.", "anchors": ["pyBN/learning/parameter/mle.py:mle_estimator", "pyBN/learning/parameter/bayes.py:bayes_estimator"]}
{"id": "C251", "title": "Learning for all nodes forgets the old parameters", "statement": "What mle_estimator and bayes_estimator do when called for all nodes, result or exception, depends only on the data, the arcs and the parent lists, not on the old values and tables. In particular a previous call of mle_estimator that raised or was made with counts=True changes nothing about a later call for all nodes.", "quantifier": "all networks, all previous parameters, all earlier unfinished calls, all data sets, all iteration orders", "why_tests_cant": "Independence of the old parameters quantifies over all of them, and over every earlier failure.", "anchors": ["pyBN/learning/parameter/mle.py:mle_estimator", "pyBN/learning/parameter/bayes.py:bayes_estimator"]}
{"id": "C252", "title": "Queries that cover a whole family are never answered", "statement": "In a network of at least two nodes, marginal_ve_e raises NameError on every legal query in which target and evidence together contain some node and all its parents. So no query about a node without parents is answered, whatever the evidence; none with evidence about a node without parents; and none about a node whose parents are all observed (the query for a row of its table).", "quantifier": "all networks with at least two nodes, all targets, all legal evidence, all iteration orders", "why_tests_cant": "It is a statement about all networks and all queries of a kind; the repository's own tests of such queries only look at one network.", "anchors": ["pyBN/inference/marginal_exact/ve_marginal.py:marginal_ve_e", "pyBN/classes/factorization.py:consolidate"]}
{"id": "C253", "title": "Given its parents a node is distributed as its table says", "statement": "If the evidence gives the values of all parents of a node and says nothing about its descendants, the estimates of lw_sample for the node converge almost surely, as the number of samples grows, to the row of its table selected by the parents' values, up to the rounding to four digits.", "quantifier": "all networks with normalised tables whose nodes are listed parents first, all nodes, all such evidence of positive probability, almost all random streams", "why_tests_cant": "A limit over all sample sizes, for almost every random stream, for every network.", "anchors": ["pyBN/inference/marginal_approx/lw_sample.py:lw_sample"]}
{"id": "C254", "title": "The tree of chow_liu is at least as heavy as a star", "statement": "Given the weights, the tree chow_liu selects attaches every node to its parent by a pair at least as heavy as the pair of the node and the root, which is the first node of a heaviest pair; so its total weight is at least that of the star around the root.", "quantifier": "all numbers of variables from two on, all weights", "why_tests_cant": "It compares the greedy selection with another tree for every choice of weights.", "anchors": ["pyBN/learning/structure/tree/chow_liu.py:chow_liu"]}
{"id": "C255", "title": "The hash of a network is the hash of its structure", "statement": "hash(bn) is not changed by any history of changes of value lists and tables, made through set_values / set_cpt or in place; bn.copy() has the hash of bn; and, where printing and string hashing do not collide, two networks have the same hash exactly when their node lists and children dictionaries are the same, orders included.", "quantifier": "all networks, all such histories, all hash functions of the two printed forms", "why_tests_cant": "It ranges over all histories of operations on an object and over Python's per-process string hash.", "anchors": ["pyBN/classes/bayesnet.py:BayesNet.__hash__", "pyBN/classes/bayesnet.py:BayesNet.copy"]}
{"id": "C256", "title": "Networks can be used as dictionary keys", "statement": "After d[bn] = w, d[x] returns w for every network x equal to bn (same nodes, arcs and tables), in particular for bn and for bn.copy().", "quantifier": "all networks, all dictionaries, all hash functions", "why_tests_cant": "The outcome depends on the other keys of the dictionary, on hash values and on object identity.", "anchors": ["pyBN/classes/bayesnet.py:BayesNet.__hash__", "pyBN/classes/bayesnet.py:BayesNet.__eq__", "pyBN/utils/class_equivalence.py:are_class_equivalent"]}
{"id": "C257", "title": "What a dictionary with network keys really does", "statement": "Looking up (or storing under) a non-empty network passes over all slots whose cached hash is not its present hash or whose key has other nodes. At the first other slot: the value (it is replaced) when the key is the very object, TypeError when it is another object. Without such a slot: KeyError (a new slot). A network whose arcs were edited after it was stored, so that some arc is new or gone, is no longer found, if the hash does not collide.", "quantifier": "all networks all of whose nodes are described, all dictionaries, all hash functions, all edit histories between existing nodes", "why_tests_cant": "It ranges over all contents of the dictionary and over all histories of edits between storing and looking up.", "anchors": ["pyBN/classes/bayesnet.py:BayesNet.__hash__", "pyBN/classes/bayesnet.py:BayesNet.__eq__", "pyBN/classes/bayesnet.py:BayesNet.add_edge", "pyBN/classes/bayesnet.py:BayesNet.remove_edge"]}
{"id": "C258", "title": "Exactly how learned probabilities are rounded", "statement": "What mle_estimator writes into a table is the relative frequency rounded to the nearest five-digit decimal, halves rounded down: the constant 1e-7 added to the denominator decides halves, writes 0 where a configuration of the parents was never seen, and changes nothing else. The number handed to round is never a half, so the rounding rule of the Python version does not matter.", "quantifier": "all networks, all data sets, all numbers of rows, all entries of all tables", "why_tests_cant": "Halves and near halves occur only for particular counts; the claim is that no count whatsoever is rounded the wrong way.", "anchors": ["pyBN/learning/parameter/mle.py:mle_estimator"]}
{"id": "C259", "title": "Repeating the data changes nothing that is learned", "statement": "If every row occurs k times as often (k at least 1; in any order), mle_estimator and naive_bayes return exactly the same network, or fail alike; mle_estimator(counts=True) returns k times the counts; bayes_estimator with its default prior weight (or with a weight multiplied by k) learns the same tables.", "quantifier": "all networks, all data sets, all k, all orders of the rows, all iteration orders", "why_tests_cant": "It relates runs on data sets of unbounded size, and rounding could break it for particular counts.", "anchors": ["pyBN/learning/parameter/mle.py:mle_estimator", "pyBN/learning/parameter/bayes.py:bayes_estimator", "pyBN/learning/structure/naive/naive_bayes.py:naive_bayes"]}
{"id": "C260", "title": "Recoding the values does not change what is learned", "statement": "If the values in every column of a data set are renamed by any injective code (different columns may use different codes), mle_estimator and bayes_estimator learn the same probabilities: a probability of the network learned from the recoded data at the codes of some values is the probability learned from the original data at the values. If the codes preserve the order of the values, the tables are literally the same.", "quantifier": "all networks, all data sets, all injective codes, all assignments, all iteration orders", "why_tests_cant": "It ranges over all codes of the values; the learned values are sorted, so a code may permute tables arbitrarily.", "anchors": ["pyBN/learning/parameter/mle.py:mle_estimator", "pyBN/learning/parameter/bayes.py:bayes_estimator"]}
{"id": "C261", "title": "Independence tests do not depend on the codes of the values", "statement": "Renaming the values of a column by an injective code does not change the results of mi_test, mutual_information, are_independent and entropy.", "quantifier": "all data sets, all injective codes", "why_tests_cant": "It ranges over all codes; the shipped data use consecutive codes only.", "anchors": ["pyBN/utils/independence_tests.py:mi_test", "pyBN/utils/independence_tests.py:are_independent", "pyBN/utils/independence_tests.py:mutual_information", "pyBN/utils/data.py:unique_bins"]}
{"id": "C262", "title": "What the independence tests see of the codes", "statement": "mi_test, mutual information and are_independent with at most one conditioning column, and entropy and mutual_information of one or two columns, depend on the data only through the number of distinct values of each column and, row by row, the equal-width bins of numpy's histogram into which the entries fall. In particular codes that are stretched and shifted (x to s*x+t, s positive, per column) give the same results.", "quantifier": "all data sets, all pairs of data sets with the same bins, all stretchings and shifts per column, all significance levels", "why_tests_cant": "It relates results on all pairs of data sets with the same bins.", "anchors": ["pyBN/utils/independence_tests.py:mi_test", "pyBN/utils/independence_tests.py:mutual_information", "pyBN/utils/independence_tests.py:entropy", "pyBN/utils/data.py:unique_bins"]}
{"id": "C263", "title": "Repeating the data changes no score and no searched structure", "statement": "If every row occurs k times as often (k at least 1, in any order), mutual_information, entropy and mi_test(test=False) of the data are the same for any number of columns, and hc, tabu and (with the same random draws) hc_rr return the same network, or fail alike: the number of rows multiplies every score difference and never decides a comparison.", "quantifier": "all data sets, all k, all orders of the rows, all parameters of the searches, all random draws, all iteration orders", "why_tests_cant": "It relates whole search runs on data sets of unbounded size; a comparison with an absolute threshold or a rounding would break it only for particular data.", "anchors": ["pyBN/utils/independence_tests.py:mutual_information", "pyBN/utils/independence_tests.py:entropy", "pyBN/learning/structure/score/hill_climbing.py:hc", "pyBN/learning/structure/score/tabu.py:tabu", "pyBN/learning/structure/score/random_restarts.py:hc_rr"]}
{"id": "C264", "title": "What ve_map answers on tables that are too long", "statement": "On a network whose tables have a whole number of times as many entries as they should (as remove_edge leaves them), every answer of ve_map - the assignment, the assignment with its probability, the value of a target - is the answer for the network whose tables are cut to their first entries. So after remove_edge(u, v), u being the last parent of v, an assignment that is returned is legal, agrees with the evidence and is most probable for the joint in which v goes on behaving as if u always had its first value, not for the old network. The call may also raise where the cut network is answered.", "quantifier": "all networks with tables too long by whole factors, all evidence, all iteration orders; all networks built and then edited by remove_edge", "why_tests_cant": "It ranges over all networks and all evidence, and the wrong answers come without any exception.", "anchors": ["pyBN/inference/map_exact/ve_map.py:ve_map", "pyBN/classes/bayesnet.py:BayesNet.remove_edge", "pyBN/classes/factorization.py:Factorization.traceback_map"]}
{"id": "C265", "title": "What bayes_estimator leaves in the network", "statement": "bayes_estimator counts and normalises in the tables of the network itself. Whether it returned or raised, and wherever it raised (after it the tables may hold raw counts, e.g. with equiv_sample=0 and a parent configuration that never occurs), a later call of mle_estimator or bayes_estimator for all nodes gives exactly what it would have given without the first call. In particular calling bayes_estimator twice with the same arguments gives the network of calling it once: the prior is not accumulated.", "quantifier": "all networks, all data (fitting or not), all equivalent sample sizes, all node lists of the first call, all iteration orders of both calls", "why_tests_cant": "It ranges over all networks, all data and all places at which the first call can stop.", "anchors": ["pyBN/learning/parameter/bayes.py:bayes_estimator", "pyBN/learning/parameter/mle.py:mle_estimator"]}
{"id": "C266", "title": "The prior of bayes_estimator is a set of imagined rows", "statement": "Let N be the number of rows that can be made of the values occurring in the columns of the data. bayes_estimator with equiv_sample = k*N (k a positive integer) learns, for every node, the relative frequencies (rounded to five decimals) of the data to which k copies of each of those N rows have been added. More generally, for every positive weight e, equiv_sample = e + k*N on the data and equiv_sample = e on the extended data give the same values and tables.", "quantifier": "all networks, all data that fit them, all node orders with matching columns, all k and e, all iteration orders", "why_tests_cant": "It relates two calls on different data for every network and every data set, whatever the sizes of the tables.", "anchors": ["pyBN/learning/parameter/bayes.py:bayes_estimator"]}
{"id": "C267", "title": "What the prior weight of bayes_estimator does", "statement": "A larger equiv_sample never moves a learned probability away from the uniform 1/card (beyond 1e-5, the rounding). With n rows showing the configuration of the parents, c of them the value, m parent configurations and weight e: the probability is within n*m/e + 0.5e-5 of uniform and, if n > 0, within e/(n*m) + 0.5e-5 of the relative frequency c/n. A value seen at least as often as another under the same configuration never gets the smaller probability.", "quantifier": "all networks, all data that fit them, all node orders with matching columns, all positive weights, all iteration orders", "why_tests_cant": "The inequalities are about every network, data set, entry and weight, including limits of the weight.", "anchors": ["pyBN/learning/parameter/bayes.py:bayes_estimator"]}
{"id": "C268", "title": "Learning the parameters of some nodes only", "statement": "mle_estimator(bn, data, nodes) and bayes_estimator(bn, data, nodes=nodes) with a list of some nodes learn the tables of these nodes as a call for all nodes would, and change nothing about the other nodes.", "quantifier": "all networks, data, node lists, estimators, iteration orders", "why_tests_cant": "It ranges over all networks, data and node lists and about everything the calls leave behind, also when they raise.", "anchors": ["pyBN/learning/parameter/mle.py:mle_estimator", "pyBN/learning/parameter/bayes.py:bayes_estimator"]}
{"id": "C269", "title": "What mle_estimator for some nodes destroys", "statement": "When mle_estimator(bn, data, nodes) returns, exactly the nodes of the list still have values, parents and a table; reading them for any other node raises KeyError. If a node of the network was left out, marginal_ve_e, ve_map, forward_sample, and both estimators called for all nodes never return on the network again.", "quantifier": "all networks, data, node lists that leave out a node, later queries, samples and learning calls, iteration orders", "why_tests_cant": "That no later call returns ranges over all of them.", "anchors": ["pyBN/learning/parameter/mle.py:mle_estimator", "pyBN/inference/marginal_exact/ve_marginal.py:marginal_ve_e", "pyBN/inference/map_exact/ve_map.py:ve_map", "pyBN/inference/marginal_approx/forward_sample.py:forward_sample"]}
{"id": "C270", "title": "Learning a list of nodes that contains its parents", "statement": "bayes_estimator(bn, data, equiv_sample, nodes) for a list of distinct nodes of the network that contains the parents of its nodes, each listed at the position of a column with the entries of its own column, returns; every listed node has P(v = x | pa) = (E/K + count(v = x, pa)) / (card(v) E/K + count(pa)), rounded to five decimals, where K is the size of its table and E the prior weight. The data needs no columns for the other nodes, and these keep their values, parents and tables.", "quantifier": "all network structures, such node lists, data with columns for the listed nodes, positive prior weights, iteration orders", "why_tests_cant": "It ranges over all networks, node lists and data sets.", "anchors": ["pyBN/learning/parameter/bayes.py:bayes_estimator"]}
{"id": "C271", "title": "Maximum likelihood for a list of nodes that contains its parents", "statement": "mle_estimator(bn, data, nodes) for a list of distinct nodes of the network that contains the parents of its nodes, each listed at the position of a column with the entries of its own column, returns. With counts=True it returns for every listed node its values and, for every configuration of the node and its parents, the number of rows showing it. Without, if the list keeps the order of every parent list, every listed node gets P(v = x | pa) = count(v = x, pa) / (count(pa) + 1e-7), rounded to five decimals. The data needs no columns for the other nodes.", "quantifier": "all network structures, such node lists, data with columns for the listed nodes, iteration orders", "why_tests_cant": "It ranges over all networks, node lists and data sets.", "anchors": ["pyBN/learning/parameter/mle.py:mle_estimator"]}
{"id": "C272", "title": "What is learned about a node depends only on its family's columns", "statement": "mle_estimator and bayes_estimator learn the same values, parents and table for a node from two data sets with equally many rows that agree in the columns of the node and its parents (the columns they name, and the columns at their positions in the node list, from which the code takes the values). Changing any other column has no effect on that node.", "quantifier": "all network structures, pairs of data sets, node orders, positive prior weights, iteration orders (also different ones in the two runs)", "why_tests_cant": "It ranges over all pairs of data sets.", "anchors": ["pyBN/learning/parameter/mle.py:mle_estimator", "pyBN/learning/parameter/bayes.py:bayes_estimator"]}
{"id": "C273", "title": "Floating point error of mle_estimator", "statement": "In floating point arithmetic with relative error u per operation (counts are exact integers), mle_estimator(bn, data, nodes) returns with the structure and values it has in exact arithmetic, and every learned probability differs from count(v = x, pa) / (count(pa) + 1e-7) by at most 1/200000 + w + u(2 + w), where w = ((1+u)/(1-u))^2 - 1; for doubles, by at most 1/200000 + 2^-49. The learned number is the float nearest to the exactly rounded one unless the exact quotient lies within w of a boundary of the rounding to five decimals.", "quantifier": "all rounding functions with relative error u < 1 (IEEE double among them), network structures with parents in node order, data whose columns match the positions, iteration orders", "why_tests_cant": "It bounds the error over all counts and all admissible arithmetics.", "anchors": ["pyBN/learning/parameter/mle.py:mle_estimator"]}
{"id": "C274", "title": "Floating point error of bayes_estimator", "statement": "In floating point arithmetic with relative error u per operation and any summation (np.sum included) that rounds at most once per summand on the way to the total, bayes_estimator(bn, data, equiv_sample, nodes) with equiv_sample > 0 or absent returns whenever it does in exact arithmetic, with the same structure and values, and every learned probability differs from (equiv/K + count(v = x, pa)) / (card(v) equiv/K + count(pa)), K the size of the table, by at most 1/200000 + w + u(2 + w), where w = ((1+u)/(1-u))^(rows + card(v) + 2) - 1; for doubles and at most a million rows, by at most 1/200000 + 2^-29. The learned number is the float nearest to the one learned exactly unless the exact quotient lies within w of a boundary of the rounding to five decimals.", "quantifier": "all rounding functions with relative error u < 1 (IEEE double among them), summation orders, network structures, data sets whose columns match the positions, positive equivalent sample sizes, iteration orders", "why_tests_cant": "It bounds the error over all data sets and all admissible arithmetics and orders of summation.", "anchors": ["pyBN/learning/parameter/bayes.py:bayes_estimator"]}
{"id": "C275", "title": "Tables learned by bayes_estimator in floating point are distributions up to rounding", "statement": "In floating point arithmetic with relative error u per operation and any summation that rounds at most once per summand, bayes_estimator with a positive (or the default) equivalent sample size returns a well-formed network whose probabilities are all at least 0 and at most 1 + E and, for every assignment of values to the parents, observed or not, sum to one over the values of the node within card(v) E, where E = 1/200000 + w + u(2 + w) and w = ((1+u)/(1-u))^(rows + card(v) + 2) - 1.", "quantifier": "all rounding functions with relative error u < 1, summation orders, network structures, data sets that fit (no assumption on which column a node is read from), positive equivalent sample sizes, parent assignments, iteration orders", "why_tests_cant": "It covers every parent assignment, data set and admissible arithmetic.", "anchors": ["pyBN/learning/parameter/bayes.py:bayes_estimator"]}
{"id": "C276", "title": "Tables learned by mle_estimator in floating point are distributions up to rounding", "statement": "In floating point arithmetic with relative error u per operation, mle_estimator(bn, data, nodes) returns probabilities that are all at least 0 and at most 1 + E, and for every assignment of values to the parents the probabilities of a node are all zero or sum to one within card(v) E + 1e-7, where E = 1/200000 + w + u(2 + w) and w = ((1+u)/(1-u))^2 - 1.", "quantifier": "all rounding functions with relative error u < 1, network structures with parents in node order, data sets that fit (no assumption on which column a node is read from), parent assignments, iteration orders", "why_tests_cant": "It covers every parent assignment, data set and admissible arithmetic.", "anchors": ["pyBN/learning/parameter/mle.py:mle_estimator"]}

# Working notes (source reading, candidate findings, backlog)

Observations from reading /repo, used to choose properties:

- factor.py:275-318 multiply: phi1 = larger scope (ties: self). rv_order = phi1 vars sorted by stride, then list(set(phi2)-set(phi1)).
  `phi1.card.update(phi2.card)` mutates the larger operand even if it is `other_factor`; `self.card=phi1.card` aliases.
  psi length = product of ALL phi1.card values.
- factor.py:424-448 sumout: exp_len=int(len/card); p=prod(card[r] for r in scope if stride[r]<stride[rv]); k jumps; stride update for v>rv_stride.
- maxout starts at max_val=0 (wrong for negative/log tables); var not updated.
- reduce_factor: while add_idx<exp_len, copies slices. val index via bn.F[rv]['values'].index.
- normalize: perturb +1e-7, block of var with stride 1 (arbitrary if ties with card-1 variables -> blocks of size 1).
- Factorization.consolidate uses undefined `_phi[i]` -> NameError if >1 factor. marginal_ve_e not normalised.
- ve_map prob=True -> consolidate.
- Factorization.__sub__ records map_assignment[rv]=val.
- bayesnet.add_node doesn't create E[rv]; default parents=[] shared; add_edge with new u -> KeyError; reverse_arc forgets F parents.
- value_idx returns -1 on missing value (cpt_indices then starts from negative s_idx).
- class_equivalence: set + set TypeError.
- parameter_distance: `BayesNet` name not imported -> NameError in every function (assert isinstance).
- hybrid_distance: hamming/euclidean not imported -> NameError.
- graph.topsort is BFS, not topological: A->[B,C], C->[B] gives A,B,C.
- forward_sample/lw_sample: new_sample[p] KeyError if parent later in V.  random_sample reads np.empty garbage.
- gibbs: `i > burn` keeps n-burn-1 samples, divides by n-burn. Ignores children.
- would_cause_cycle: nx.find_cycle(G, source=u).
- mst: Prim from node 0, directed edges; sorted by weight (stable); break.
- make_chordal: tuple vs list compare (always appends); isolated nodes vanish from nx.Graph.
- CliqueTree.parents appends v not rv. exact_bp/loopy_bp: CliqueTree/ClusterGraph not imported -> NameError.
  Clique.initialize_psi multiplies psi by itself. send_message uses shallow copy -> corrupts belief's card/stride/scope.
- hc: reversal body is indented under `if debug:` so with debug=False nothing happens; restriction not checked on reversal.
  while loop: `_iter > max_iter` break => at most max_iter+1 passes.
- tabu: tabu_list=[None]*k but index `_iter % 5` -> IndexError for k<5 (k<5 and iter%5>=k); k>5 same as 5. Reversal (u,v) recorded, undo is (v,u).
- hc_rr: random deletion/reversal `while True` never ends without edges; random additions ignore restriction.
- mle_estimator: values from data[:,i] with i = position in nodes, but row[rv] for observations; F parents recomputed in node order
  (layout mismatch if bn.F parents were in another order); bn.F replaced by only `nodes`. denominators +1e-7.
- bayes_estimator: prior equiv_sample/p_idx each; block normalised exactly, then round 5.
- mle_fast: parameter named np shadows numpy -> always raises AttributeError ('bool' has no attribute 'unique').
- K2/BDe/BDeu: `len(cpt)` undefined; also mle_fast raises.
- naive_bayes target != 0: V=[target,...], so values are read from the wrong columns.
- chow_liu: mi_test(..., chi2_test=False) TypeError. Core loop: spanning tree from edge_list[0][0]; not maximum.
- gs: shrink loop never updates S -> infinite if some Y independent. feature_selection: Mb[_T] with list -> TypeError.
- iamb: appends loop variable X not max_x; removal during iteration skips elements.
- fast_iamb: S.remove during set iteration -> RuntimeError; resolve... not imported.
- lambda_iamb: Mb values are {} (dict), V - {} TypeError.
- pc starts at i=1: marginal independence never tested; orient_edges_CS keeps only uncoupled-triple edges => 2-variable pc always empty.
- resolve_markov_blanket: range(len(T)) never tests the full T; edge_dict symmetric.
- orient_edges_MB: list mutation while iterating; `else: if Y in edge_dict[X]: edge_dict[Y].remove(X)` may ValueError.
- mmpc/mmhc: names not imported; infinite growth.
- are_independent returns True iff pval < alpha (inverted w.r.t. doc: pval<0.05 means DEPENDENCE).
- mi_test: joins columns as strings: '1','11' vs '11','1' collide.
- replace_strings: writes ints into string array => truncated to the item width (S1 with >=11 values).
- read_json: V = topsort(E); json keys become strings: int-named (learned) networks cannot be round-tripped.
- read_bif: prob row length uses len(_vals[new_vertex]) (last declared variable), not child_rv.
- read_mat: edges all empty.
- discretize: np.digitize(linspace(min,max,bins)).
- structure_distance: missing nodes: degree counted, edge double counted; incorrect_direction uses `rv in y.parents(rv)`.
- predict: marginal_lws_a undefined.

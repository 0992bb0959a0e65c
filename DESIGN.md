# pyBN: a machine-checked model in Lean 4

## 1. What is modelled, and how

The code in `/repo` targets **Python 2.7 and a numpy of that era** (`dict.iteritems`, `unicode`,
`list.sort` on `dict.items()`, `/=` dispatching to `__div__`, `np.zeros` of a float length,
`np.product(dict.values())`, float array indices). The model follows those semantics.

* **Numbers.** CPT entries are exact rationals (`ℚ`). Floating-point rounding error, overflow,
  underflow, `nan`/`inf` are *not* modelled. `round(x, d)` is modelled as exact decimal rounding, half to even
  (numpy) where it appears (half away from zero for Python 2's `round`). The independence tests and scores (`Model/Indep.lean`) are over `ℝ`
  with Mathlib's `log`, `exp`, `Gamma`; the structure searches take the test or score as an arbitrary parameter (oracle), so their theorems hold
  for every data set, and C100/C101 instantiate it with the model of the real score.
* **Exceptions** are values: every function that can raise returns `Except PyErr α`
  (`KeyError`, `IndexError`, `ValueError`, `ZeroDivisionError`, `NameError`, `TypeError`, and
  `diverges` for a loop that never ends). Dict lookup, list `.index`, list `.remove` and array indexing (with
  Python's negative indices) all go through this.
* **Hash iteration order.** Iterating a `dict`/`set` uses an arbitrary reordering oracle
  (`HashOrder`: an arbitrary function of the container's contents that returns a permutation of them).
  Theorems quantify over every oracle, hence over every hash seed/insertion history.
* **Mutation.** In-place updates become functions returning the new value. Where aliasing is the point
  (C11, C22, C24, clique messages) there is an explicit heap of cells.
* **External calls** (`np.random.choice`, `mi_test`, `mutual_information`, `nx.find_cycle`, `json`) are parameters;
  the assumed contract, if any, is an explicit hypothesis of the theorem, and a concrete instance meeting it is exhibited.

Layout of `/verif/lean/Verif`:

| directory | content |
|---|---|
| `Py/` | Python primitives (errors, dicts, list ops, hash order, rounding) |
| `Model/` | the code, function by function, each definition citing file:lines |
| `Spec/` | small independent specifications (joint probability, reachability, acyclicity, ...) |
| `Proofs/` | helper lemmas |
| `Props/` | the property theorems `C01_...`, with witnesses that hypotheses are satisfiable |

## 2. Trusted base

* Lean 4.33.0's kernel. Axioms allowed: `propext`, `Classical.choice`, `Quot.sound`; no others are used, there is no
  `native_decide`/`bv_decide`. `lean/Verif/Audit.lean` prints the axioms of every property theorem.
* The reading of `/repo` recorded in the comments of `Model/` (the code is not run here).
* Python 2 / numpy / networkx / json semantics as described above and in the comments of `Py/` and `Model/`.

## 3. Plan per property

* **C01 C02 C03 C04 C05 C06 C07 C08 C09 C10** `Model/Factor.lean` models `class Factor` (fields `var, cpt, scope, card,
  stride`), loops included (odometer of `multiply_factor`, running index of `sumout_var`/`maxout_var`, block copy of `reduce_factor`).
  Spec: the meaning of a factor is a function of assignments `N → ℕ` (value indices). Proof: a layout invariant
  ("there is an ordering of the scope whose prefix products are the strides") and mixed-radix encoding lemmas;
  loops by invariants over the iteration count. C10 is an induction over an arbitrary history of operations.
* **C11** `multiply_factor` executes `phi1.card.update(phi2.card)` and `self.card = phi1.card`, so a larger right operand is
  modified: a negative witness, plus the partial theorem for a right operand that is not larger.
* **C12 C13 C14 C15** `Model/Factorization.lean`, `Model/Inference.lean`. Spec: joint = product of CPT entries, marginal = nested
  sum over all values. Induction over the elimination order with invariant "product of factors = partial sum of joint".
  C14 is false with evidence (no normalisation), C15 is false (`consolidate` refers to an undefined global `_phi` when more
  than one factor survives): negations proved by witnesses, and exact characterisations proved.
* **C16 C17** max-product elimination, `traceback_map`; invariant: the pending factors' product is the maximum over eliminated
  variables, and the traceback extends a maximiser.
* **C18 C19 C20 C21 C23** `Model/BayesNet.lean`.
* **C22 C24** heap model of `F[rv]['parents']` lists (mutable default argument `parents=[]` is one shared object).
* **C25** `set + set` raises TypeError: negation and exact characterisation.
* **C26 C27 C28 C29** `Model/Graph.lean`; queue loop with a termination proof; C27 false in general (witness), proved for forests.
  `nx.find_cycle` by contract.
* **C30–C34** `Model/HillClimb.lean` and friends: the score (`mutual_information`) is an arbitrary oracle.
* **C35 C36** `Model/Learn.lean`.
* **C37–C40** sampling with an arbitrary stream of random choices; C38/C39 with an explicit finite distribution monad.
* **C41 C42 C43** distances and blankets; **C44** JSON as a value tree; **C45 C46** data utilities;
  **C47–C50** constraint-based learning with arbitrary test oracles.

* **C51 – C60** came out of C12–C24: where a property turned out to be false of the code, the user-level property keeps its id with status
  `partial` (a theorem `Cxx_false` refuting it and `_partial` theorems for what does hold), and a new property states the exact behaviour and
  is proved.  The same convention holds for all later ids.
* **C61 – C64** score-based searches, exact; **C65 – C67** parameter estimators, exact; **C68 – C73** samplers, exact (random numbers are a function
  `U : ℕ → K` of draws in `[0,1)`; probabilities are Lebesgue measure on the cube of draws, `Proofs/SampleMeasure.lean`).
* **C74 – C76** distances and `set_structure` on arbitrary input; **C77 – C84** constraint-based learning and Chow-Liu, exact.
* **C85 – C88** files (JSON as a token list, so that a crash can happen between any two writes) and data preparation.
* **C89 – C99** `Model/Indep.lean`: histograms, mutual information and the p-value over `ℝ`; proofs by Gibbs' inequality, by monotonicity of rounding
  and by the decimal encoding of joined columns.  **C100, C101** combine this model with that of the hill-climbing loop (invariant: every node has at
  most one parent; measure: the number of parentless nodes).
* **C102 – C108** `Model/Bif.lean`: the BIF reader character by character; `Spec/Bif.lean` is an independent printer of documents; proofs by
  induction over the document, splitting lines into words.
* **C109, C110** `Model/Chordal.lean`: the fill-in loop; `Spec/Chordal.lean` defines chordality by cycles `ZMod n → N`; proof: the first vertex of a
  cycle to be eliminated has both cycle-neighbours joined.
* **C111** exchange argument along Prim's loop: at each step some minimum spanning tree contains the edges so far.
* **C112, C113** `Model/Clique.lean`: `networkx`'s chordality test and clique listing are parameters with their documented contract. Existence of a junction
  tree for a chordal graph (`Proofs/Dirac`, `Proofs/Junction`: simplicial vertices), then: a Prim tree for the weights -|common variables| has the running
  intersection property because an exchange along the path cannot lose weight.
* **C114, C115** `initialize_psi` multiplies an *alias* of one of the listed factors; heap of lists and dictionaries, objects as values.
* **C116 – C118** `send_message` on that heap: `copy` shares `scope`, `card`, `stride` with the belief, `sumout_var` updates them in place.
* **C119** invariant over the schedule: the messages waiting at a clique are the sums of the potentials of the subtrees below.
* **C120** induction on the list of nodes.
* **C121, C122** invariant over the growing loop; the maximum search is characterised by induction on the candidate list.
* **C123, C124** the pass over the changing list refines a small-step relation `ShrinkRun`; corollaries by induction on it.
* **C125, C126** each handled pair acts on the arc relation by an explicit transformer; only two pairs touch a given edge.
* **C127, C128** composition with C47 and C76. **C129** invariant "blanket and candidates partition the other columns". **C130** from C123.
* **C131 - C133** `naive_bayes` = structure dict, `set_structure` (C76), `mle`/`bayes` (C35, C65): composition; the structure by case analysis on the position of the target.
* **C134 - C136** the variables, constraints and weights of `ilp_map` are modelled; feasible 0/1 points are shown to be exactly the joint assignments (both directions); the solver is "any optimal feasible point". C136 false by a two-node network.
* **C137 - C141** `entropy`, `mi_from_en` over ℝ with `Real.log`; histograms equal empirical frequencies for coded columns; C138, C140 false on 0/1 data, with the exact value there.
* **C142 - C148** `info_scores` over ℝ; sums over tables are rearranged per node; C144 by concavity (Gibbs' inequality), C148 by counting the repeated blocks.
* **C149 - C151** `mb_fitness`: fold over the targets; the ratio is bounded by the smallest and largest p.
* **C152 - C154** `to_log`/`from_log` with rounding to 5 decimals; error bounds for `exp`/`log`.
* **C155, C156** `EmpiricalDistribution`: bump of one cell per row; every query reaches an undefined name or unhashable key.
* **C157 - C159** heap model of `set_structure` (addresses of list objects); refinement to the pure model, then frame lemmas.
* **C160, C161** three-column `mi_test`: as C89-C92, with the factor of the third column.
* **C162 - C165** the small queries and the calls that raise: direct, by the lemmas already used for the larger ones.
* **C166 - C168** exact inference in floating point: a second model of multiplication, summing out and elimination in which every sum and product
  passes through a rounding function `rnd` with relative error `u` (`Model/Rounded.lean`), proved equal to the first one for `rnd = id`; the error
  bound is a count of operations, by induction on the elimination.
* **C169, C170** the head variable and foreign variables: from the layout invariant of C01-C08.
* **C171-C174** convergence of the samplers: each pass is a fixed function of its own block of random numbers; blocks of i.i.d. uniform numbers are i.i.d. uniform on the cube (infinite product measure), so variance of sums, Hoeffding's inequality and the strong law of large numbers (Mathlib) apply to the passes.
* **C175, C176** parameter and hybrid distances: a flag says whether the un-imported names are bound; the assertions go through the model of `==` (C25); the formulas are real-valued functions of two tables.
* **C177, C178** `exact_bp`: a flag says whether `CliqueTree` is bound; networkx's postorder is a parameter (assumed to list nodes of the tree once, with the root); reduces to C115 (potentials), C120 (`parents`) and the heap semantics of `*=`.
* **C179 - C183** perfect tests: `Spec/DSep` defines d-separation by active paths; `FindsDependence`/`FindsIndependence` say that the tests answer by it. From C77, C78, C81, C121, C123 and five facts about d-separation (adjacent variables and spouses given a child are never separated; the blanket, its ancestral part, and the parents separate).
* **C184 - C187** `Model/FactorizationOps` gives each call on a `Factorization` its effect *and* the exception, so that histories with caught exceptions are covered; `Spec/FactorizationOps` is a four-field abstract state (variables left, function, observed, maximised). Simulation invariant by induction on the history; marginal MAP from C12, C15's lemmas.
* **C188 - C191** compose `random_sample` (C54, C171's blocks) with the estimators (C66, C67): the rows' counts are sums of i.i.d. pass functions, the strong law gives the frequencies, the chain rule `P(v, pa) = P(pa) P(v | pa)` is proved for networks listed parents first, and finitely many configurations make the limit uniform over the table.
* **C192, C193** apply the strong law to the joint and marginal counts of two columns, push it through the continuous statistic (every smoothed probability stays positive), and use strict concavity of the logarithm (Gibbs) for "zero exactly when independent"; the test statistic then grows linearly in `n`, so its p-value rounds to 0.
* **C194** bounds the total variation between the two joint distributions by telescoping the product over a parents-first order, then C13 and C52 carry it to the answers; **C195** feeds C188 into the same bound (drift is continuous in the table error).
* **C196** models the entry points that fail up to the statement that raises, with the code behind it a parameter, and shows it is never reached.
* **C197 - C200** soundness of d-separation: `Proofs/DSepWalk` turns an open walk into an active trail and shows that sets separated by paths are disconnected in the moral graph of the ancestors; `Proofs/DSepSound` sums out the other nodes (`barren`) and splits the product of the tables. With C13, C43, C52 and C179 - C181 this gives the answers with irrelevant evidence (C197), the Markov blanket (C198), error-free tests on a faithful network (C199) and the irrelevance of non-ancestors (C200). `CondIndep`, `Separates`, `Faithful` are in `Spec/CondIndep`.
* **C201, C202** `Props/Tight`: exact failures of edits that name unknown nodes (and how far an arc edit gets before it raises), and the sepset of two factors; the same file sharpens C13 and C66 (ties), C24, C43 (missing entries), C116 (cliques without a potential), C156 (exactly which exception) and C176 (one-entry tables), where edited models had passed the earlier statements.
* **C203 - C206** conditional tests on sampled data: `Proofs/EmpLimit` and `Proofs/SampleBox` show that the frequencies of all legal rows converge together (strong law, `SampleLaw`) and that the statistic is a continuous function of them; `Proofs/SmoothCMI` bounds the smoothed conditional mutual information from below by a positive number, cell by cell (independent case) or by Jensen plus the smallest cell (no rare cells). The p-value is then a chi-square density at a point growing like n, which rounds to 0. C204 is false of the code.
* **C207 - C209** `Props/SampleBlanket`: all tests of C205 and the pair tests of C193 at once, fed into the exact descriptions of `gs` (C78, C77, C80) and `iamb` (C121, C123, C127). C207 is false of the code.
* **C210 - C213** `Model/ScoreCall` runs `hc`, `tabu` and `hc_rr` from their first statement: `mle_estimator` and `info_score` on the arcless network are shown never to fail on arrays with rows (C211 gives the arrays without), after which C30, C33 apply; the scores come from the data instead of a parameter.
* **C214 - C216** `Spec/Greedy` defines greedy choice of arcs; `Proofs/HcGreedy` follows the passes of `hc` on 0/1 data (C100, C101: only additions to parentless nodes improve) and shows by induction on the run that the arcs are a prefix of the greedy list, and all of it since the result is a tree. `Props/SampleHc` adds C192's limits of entropy and mutual information. C214 is false of the code.
* **C217 - C219** `learn_limit_any` (`Props/Recover`) is the general step for any structure; `Props/Project` applies it with the conditional probabilities of `Spec/Project`, and for C218 adds the chain rule for any earlier set of nodes containing the parents (`marg_within`) and the drift lemmas of C195.
* **C220 - C225** `Proofs/Concentration`: Hoeffding's inequality (Mathlib's sub-Gaussian bounds) for the contribution of a pass to any event, for the plain and for the weighted passes (`pass_hoeffding`, `lw_hoeffding`). `Props/Finite`: a union bound over the combinations of values a structure's counts range over (`shares_off`, `all_shares`; the combinations are numbered with the mixed-radix code of `Proofs/Radix`), the deterministic effect of the deviations on a smoothed ratio (`ratio_close`), and the deterministic part of C217 - C219 (`sampled_data_at`, `OtherStructure.mle`, `naive_rows`, `bayes_learns`, `answers_of_close`). The failure event is bounded in outer measure, so its measurability is not needed. C225 goes through C69 (Gibbs is forward sampling on a shifted stream).
* **C226 - C230** object-level model of `Factor` and `Factorization` (`Model/FactorObjects`): factors are references into a store, `scope`/`card`/`stride` are addresses, operators write
  in place. Simulation (`Proofs/FactorObjects`): computations related by `PyRel` (same exception, or related results); ownership invariant `Own` (the factors a factorization holds share nothing with
  each other or with anything older, older cells are as they were), a factor used up by a product leaves the owned set. Interleavings: the owned set of one factorization is framed by those of the others.
* **C231 - C233** a network written by `write_bn` and read by `read_bn` (`Props/Reload`): the reloaded network has the same tables and a permutation of the nodes (C44), and all of `marginal_ve_e`'s
  answer condition (C52) and value (C13), `ve_map`'s optimum (C16) and `forward_sample`'s success condition (C37, C70) are transferred along that.
* **C234** path lemma of Rose, Tarjan and Lueker by induction on the eliminated prefix (`Proofs/FillIn`, walks in `Spec/FillIn`).
* **C235, C236** consequences relating several calls, from C13 (sums split along one variable; rounding is monotone and close) and C16.
* **C237–C240** tables that no longer fit after `add_edge`/`remove_edge`: the strides of `Factor.__init__` depend on cardinalities only, so with too many entries the invariant is that every factor's array starts with the array the cut network would have, followed by a whole number of further blocks (`Over`); with too few, that some factor's array is shorter than its scope asks for, which no operation repairs (`Short`) and on which the final assertion or loop fails.  For the samplers the row handed to `numpy.random.choice` has a length different from the number of values.
* **C241, C242** scopes under elimination: the invariant "sharing a factor = walking through the eliminated variables" is kept by each call (eliminating v adds v to the allowed inner nodes, `Via.split`); with C234 this identifies the new factor with a clique of the chordal graph.
* **C243** `ve_map` on a short table: a factor whose array is shorter than its scope calls for stays short under every multiplication, and stays in the factorization until its scope is empty; `prob=True` needs all scopes empty, so the product of arrays it indexes runs out. For the assignment form, `reduce_factor` on the traceback reads past the end (Blocked) or, after `add_edge`, the observed parent's slice is empty (NoRoom), and the call raises.
* **C244, C245** representation independence: `SameModel` (Spec/Rename) compares two networks by named values; positions of values correspond through a bijection per node, sums over positions are reindexed along it, families and links correspond, and C13, C16, C17, C52, C53 (C38 for samples) do the rest.
* **C246** row order: sorted lists of distinct values and histogram counts depend on the rows only as a multiset; in the estimators, a run that succeeds is a sequence of increments of table entries whose positions do not depend on the counts so far, and increments commute.
* **C247, C248** maximum likelihood: C66 gives the learned tables; Gibbs' inequality (x <= exp(x-1), row by row, summing the ratios of competing to empirical conditionals along the values of a node) bounds every competitor; rounding costs at most a factor 1 - N/10^5 per entry because a counted frequency is at least 1/N.
* **C249 - C251** what `mle_estimator` leaves in the network it is given: Model/LearnState.lean returns the network together with the exception; its outcome is proved equal to that of Model/Learn.lean (`mleAfter_false`, `mleAfter_true`, `prepareTo_outcome`). C249, C250: the two preparing loops, by induction on the nodes; C251: a simulation between two networks that differ in values and tables, which the two loops overwrite.
* **C252, C253** a node given its parents: C252 from the exact condition of C52 (a family without free variables is linked to no other); C253 from the chain rule at a node (sum out the nodes that are no ancestors, `barren`) and C173.
* **C254** an invariant of the selection loop of `chow_liu`: the pair with the root is among the pairs to come until the node is attached, and the pairs come in order of weight. What C84 wanted (maximum weight) is false.
* **C255 - C257** `__hash__` and networks as dictionary keys: Model/Keyed.lean. The hash is an arbitrary function of the node list and the children dictionary; the dictionary is CPython's open addressing reduced to the slots in insertion order (cached hash, identity before `==`). Proved by induction over the slots passed over, with C25 for `==` and C22 for edit histories.
* **C258, C259** rounding and repetition: two integers `200000 c` and `(2m-1) n` that differ, differ by one, which is more than the constant 1e-7 can move the quotient; hence the exact rounding rule, and hence invariance under `k`-fold data (counting is a sequence of increments that commute, `bumps_scale`).
* **C260** recoded data: the columns' values are the codes in a possibly different order (`recode_values`), counts are carried over row by row.
* **C261, C262** codes and bins: the statistics are functions of histogram counts, and a row's bin is unchanged by a stretch and a shift (`binOf_affine`); for codes without gaps they are the empirical quantities of Spec/Indep, which do not mention codes.
* **C263** repeated data: histogram counts and the number of rows are multiplied by `k`, so frequencies stay (`KF`); the searches commute with a positive factor on every delta (`climb_times`, `tabuLoop_times`, `rrLoop_times`).
* **C264** `ve_map` on tables that are too long: the simulation of C237–C240 (`Over`: the cut array followed by whole further blocks) is carried through max-elimination, the recorded products and the traceback; an argmax that indexes a value lies in the first block, because the recorded product, reduced by what is already assigned, still mentions the variable.  The answer is then C16 on the cut network, whose joint is the frozen one.
* **C265** what `bayes_estimator` leaves behind: an in-place model `bayesAfter` (the counts are kept in the tables of the network, which are normalised block by block), proved to have the outcome of the functional model of C36 and C67 by a simulation (tables of the network = the separate counts; `cpt_indices` reads values and parents only); structure is kept at every stop, so C251's congruence gives the rest.
* **C266** the prior as imagined rows: `grid` (Spec/Grid) is the Cartesian product of the columns' values; `grid_count`: rows of it showing a configuration of a family, times the number of configurations, is the number of all rows (induction over the columns), so `k` grids put exactly `kN / (size of the table)` on every entry of every table; with C67.
* **C267** the prior weight: C67 rewritten with the weight per parent configuration; the difference to `1/card` is `(c - n/card)/(w + n)`, antitone in `w`; rounding is monotone and moves by at most half a unit.
* **C268, C269** estimators for some nodes: frame lemmas for every loop of the in-place models (`setValuesTo`, `setTablesTo`, `countNodesTo`, `writeTo`); `mleEstimator` ends with an `F` whose keys are the listed nodes, and `Factor.init`, `zeroCounts` and `setValues` read the entry of every node. C268 itself is false, with counterexamples.
* **C270** `bayes_estimator` for an ancestrally closed list: each loop gives the same result on two networks whose entries agree on the list (`AgreeOn`, `ClosedOn` in Proofs/Agree); the second network is the first restricted to the list, to which C67 applies.
* **C271** the same for `mle_estimator`, from C35 and C66 on the restricted network.
* **C272** locality of learning: both results satisfy the position-based specification of C65/C67 (`mle_ok`, `bayes_ok`), whose right-hand side only mentions the family; tables of equal entries are equal (`table_eq`, from surjectivity of the radix code).
* **C273** floating point in `mle_estimator` (`Model/RoundedLearn.lean`: `normBlocksR`, `mleEstimatorR`; counting is exact, the normalisation is rounded after every operation): the result is characterised as in C65/C66 with `flShare` for the quotient; `quotient_close` bounds its error, `roundAway_stable` says when five-decimal rounding does not see it.
* **C274** floating point in `bayes_estimator` (`Model/RoundedBayes.lean`: the fill, every `+= 1`, the division and the rounding to five decimals are rounded; `np.sum` is a parameter `fsum` with `SumsTo`, met by left-to-right addition, `sumsTo_foldl`): the rounded run mirrors an exact run with the rounded fill (`learnR_near`, tables related entry by entry by `Near u rows`), `div_close` bounds the error of the quotient, `roundAway_stable` gives equality away from the boundaries.
* **C275** (`Props/RoundedBayesSum.lean`): the learned float tables sum to one within `card` times the entry error of C274, from `bayesR_ok` and `count_split'`; no assumption on the positions of columns.
* **C276** (`Props/RoundedBayesSum.lean`): the same for `mle_estimator`, from `mleR_ok` and `quotient_close`; unobserved parent assignments give zeros because `rnd 0 = 0`.

## 4. Findings (places where the code violates the property a user would rely on)

| where | what happens | theorem |
|---|---|---|
| `Factor.multiply_factor` | `phi1.card.update(phi2.card)` corrupts a larger right operand; later use of it raises `KeyError` | `C11_false` |
| `Factor.maxout_var` | running maximum starts at 0: wrong for negative tables (log factors) | `C05_negative_tables_fail` |
| `marginal_ve_e` | not normalised with evidence: entries sum to P(evidence) | `C14_false`, `C51_…` |
| `marginal_ve_e` | `NameError` (undefined `_phi`) whenever more than one factor survives | `C15_false`, `C52_…` |
| `marginal_ve_e` | hence no query about a root, given a root, or about a node given all its parents is ever answered (two or more nodes) | `C252_…` |
| `ve_map(prob=True)` | the same `NameError` | `C53_…` |
| `BayesNet.add_node` | the default `parents=[]` is one list shared by all new nodes | `C60_…`, `C24_false` |
| `BayesNet.add_edge` | unknown source: `KeyError`, and the node stays behind | `C57_…` |
| `BayesNet.reverse_arc` | parents and children disagree afterwards, on every network | `C22_reverse_arc_breaks` |
| `BayesNet.__eq__` / `class_equivalence` | `set + set`: `TypeError` | `C25_false` |
| `BayesNet.flat_cpt(by_parents=True)` | windows overlap instead of tiling | `C55_false` |
| `BayesNet.cpt_indices` | an unknown value is silently the last value | `C56_…` |
| `topsort` | breadth-first, not topological; cyclic parts vanish | `C27_false`, `C54_…`, `C76_…` |
| `hc`, `tabu` | reversals are performed only with `debug=True`; without it the search repeats the same pass to the limit | `C32_false`, `C61_…` |
| `hc`, `tabu`, `hc_rr` | reversals (and random additions) ignore the restriction | `C31_false`, `C34_false` |
| `tabu` | tabu list is indexed modulo 5: `IndexError` for k < 5, window 5 otherwise; reversals are undone at once | `C33_false`, `C63_…` |
| `hc_rr` | a random deletion on an edgeless network never returns | `C34_false` |
| hill-climbing score | rewards *independence*: first parent scored by entropy minus mutual information | `C99_…`, `C101_independent_tree` |
| hill-climbing score | all parents after the first are ignored on 0/1 data; no variable ever gets two parents | `C98_…`, `C100_…` |
| `mle_estimator` | reads values by position, counts by name | `C35_false`, `C65_…` |
| `mle_estimator` | rows of unobserved parent configurations are all zero; reordered parents mislabel the table | `C36_false`, `C66_parent_order_needed` |
| `mle_estimator` | a value seen at most once in 200000 times gets probability 0: the learned network calls its own training data impossible | `C248_rare` |
| `mle_estimator` | writes zeros into the network it only counts for; an exception leaves it wiped or half updated (comment in the code: "Do not want to alter bn.data directly!") | `C249_…`, `C250_…` |
| samplers | learned tables are off 1 by more than numpy tolerates: `ValueError` | `C73_…` |
| `forward_sample` | `KeyError` if a node precedes its parent (which `topsort` allows) | `C70_…` |
| `gibbs_sample` | keeps n-burn-1 sweeps, divides by n-burn; ignores children, i.e. is forward sampling | `C40_false`, `C68_…`, `C69_…` |
| structure distances | double counting and `KeyError` on different node sets; reversed arcs never counted | `C74_…`, `C75_…` |
| `gs` / blanket search | shrink loop never ends if a blanket member is independent; dependent variables give a network without nodes | `C48_false`, `C79_…` |
| `resolve_markov_blanket` | the whole separating set is never tested | `C77_full_set_untested` |
| `orient_edges_MB` | both directions kept, both lost, or `ValueError` | `C80_false` |
| `pc` | marginal independence never tested; directed 2-cycles; networks without nodes | `C81_…`, `C83_false` |
| `chow_liu` | `TypeError` at the first weight; the tree construction is not maximum | `C84_false` |
| `write_bn`/`read_bn` | integer names come back as strings and raise; a crash leaves a file that reads as an empty network | `C85_…`, `C86_…` |
| `replace_strings` | codes are cut to the width of the string array | `C45_false`, `C87_…` |
| `discretize` | unselected columns truncated to integers; the top bin holds only the maximum | `C46_false`, `C88_…` |
| `mi_test` | "p-value" is twice the *density*: inf, nan or 0 for independent data | `C91_false`, `C92_…`, `C93_false` |
| `mi_test` | the second of two binary conditioners is ignored; joined codes collide | `C94_…`, `C95_false` |
| `are_independent` | decision reversed | `C96_…` |
| `mutual_information(conditional=True)` | bins = largest code: always 0 on 0/1 data | `C97_…` |
| `read_bif` | conditional rows are cut to the cardinality of the variable declared *last*, or `ValueError` | `C102_false`, `C103_…` |
| `read_bif` | a name containing `variable` creates a node `(`; row labels ignored; a cut file hangs or loses tables | `C104_…`, `C108_…`, `C105_…` |
| `read_mat` | the matrix is ignored | `C106_…` |
| `make_chordal` | isolated variables vanish from the graph, hence from `CliqueTree` | `C110_…`, `C113_…` |
| `Clique.initialize_psi` | the CPTs up to the largest one enter the potential squared; marginals from the tree are wrong | `C114_false`, `C114_wrong_marginal`, `C115_…` |
| `CliqueTree(bn)` | `AssertionError` if some clique gets no CPT | `C115_potentials` |
| `Clique.send_message` | shrinks the scope of the sender's own belief (and potential); sending twice raises `KeyError` | `C117_false`, `C118_…` |
| `CliqueTree.parents(v)` | returns `[v]` | `C120_…` |
| `iamb` | appends the last candidate iterated, not the one of largest association | `C121_…`, `C122_false` |
| `iamb` | shrinking removes the *dependent* members, and skips the one after each | `C123_…`, `C124_false`, `C127_two_columns` |
| `orient_edges_gs2` | edges in both directions, or lost when the ends share all neighbours | `C125_false`, `C126_…`, `C128_false` |
| `fast_iamb` | never returns (`RuntimeError`, endless loop, `NameError`) | `C129_…` |
| `iamb(feature_selection=…)` | always `TypeError` | `C130_…` |
| `naive_bayes` | the target is moved to position 0 of the node list but the estimators read values by position: wrong values and tables unless the columns share their values | `C132_false`, `C133_…` |
| `ilp_map` | evidence ignored; weights rounded to three decimals can print a non-maximal assignment | `C136_false` |
| `entropy` (three columns) | bins = largest code: 0 on all 0/1 data, or `ValueError` | `C138_false`, `C139_…` |
| `mi_from_en` | `ValueError` on every two columns; on three 0/1 columns the second is ignored | `C140_false`, `C141_…` |
| `log_likelihood` | no data enter; uniform tables have the highest score | `C143_false`, `C144_…` |
| `BIC` | penalty uses the number of arcs instead of the number of rows | `C145_false`, `C146_…` |
| `AIC` | rewards irrelevant parents | `C147_false`, `C148_…` |
| `mb_fitness` | one target: always 0; otherwise at least 1 per variable outside a correct blanket, or `ZeroDivisionError` | `C149_…`, `C151_false` |
| `Factor.to_log`/`from_log` | rounded to five decimals: probabilities up to 4e-6 become 0; `maxout_var` on a log table gives zeros | `C153_false`, `C154_…` |
| `EmpiricalDistribution` | `joint` is not a distribution; names always raise; no query ever returns | `C155_…`, `C156_…` |
| `BayesNet(E)` | keeps the caller's `edge_dict`: two networks built from it share their children lists, so an arc added to one makes the other inconsistent | `C158_false`, `C159_shared_children` |
| `mi_test` with a conditioning column | conditionally independent data get p < 0.05 with three or more degrees of freedom | `C161_…` |
| `maxout_var` of the head variable | `f.var` is left naming a variable the factor no longer has | `C169_maxout_stale` |
| parameter distances, `hybrid_distance` | `NameError` always; with the import restored `TypeError`/`AssertionError`; `euclidean` computes the Manhattan distance, `minkowski` ignores `p` in the sum, `js_divergence` passes an array where a network is required | `C176_as_shipped`, `C176_name_restored`, `C175_*` |
| `exact_bp` | `CliqueTree` is not imported: `NameError` on every call; with the import restored no message passes between cliques (`parents(i)` is `[i]`), so the table is that of one clique, usually squared | C177, C178 |
| `gs` | with perfect tests: never returns on the chain 0→1→2; on a single arc returns a network without nodes | C181 |
| `iamb` | with perfect tests the blanket is right only for isolated variables | C182 |
| `pc` | with perfect tests: misses v-structures, skips neighbours after a removal | C183 |
| `Factorization.refresh` (`factorization.py:41`) | on an object built for some nodes it builds the factors of all nodes | C185_false |
| `Factorization.__sub__` (`factorization.py:80`) | an impossible value is recorded in `map_assignment` although the call raises | C186_false |
| `Factorization.traceback_map` (`factorization.py:117`) | `IndexError` when a node was summed out after one was maximised out | C187_sum_after_max |
| `bayes_estimator` (`bayes.py:75`) | the default prior weight is the number of rows, so the estimates never approach the truth (P = 1/4 is learned as 3/8) | C190_false |
| `are_independent` on samples of dependent nodes | answers `True` (independent) at every level for all large samples | C193_dependence_detected |
| `mle_fast`, `BDe`, `BDeu`, `K2` (`mle.py:71`, `bayes_scores.py`) | the parameter `np` hides numpy: `AttributeError` for every network with a node | C196_mle_fast, C196_bayes_scores |
| `mmpc` (`mmpc.py:55,74`) | no imports; with them, `pval` is read before it is assigned, for every data set | C196_mmpc |
| `lambda_iamb` (`lambda_iamb.py:51,75`) | set minus dict: `TypeError` on every data set | C196_lambda_iamb |
| `predict` (`classification.py:83,98`) | calls functions that do not exist | C196_predict |
| `mi_test` with conditioning columns on samples | the constant 1e-7 added to the denominators P(z) leaves a positive statistic even under exact conditional independence; multiplied by 2n it grows, so the p-value is 0 on all large samples | C204_false, C205_… |
| `pc` on large samples | therefore no conditional test ever finds independence, and `pc` (which reads the test backwards) returns no edges | C206_pc_learns_nothing |
| `gs` on large samples | every conditional test finds dependence: the blanket is everything else, the result has no nodes | C208 |
| `iamb` on large samples | blankets of exactly half of the other nodes, whatever the network | C209 |
| `hc` | in the long run it adds arcs between independent nodes, prefers the least informative parents, and always returns a spanning tree | `C214_false`, `C215_tree_in_the_long_run`, `C216_two_nodes` |
| `hc`, `tabu`, `hc_rr` | `metric` has no effect, not even for strings that name no metric | `C212_metric_ignored` |
| `mdbn` | never returns: iterates over a `BayesNet` | `C213_mdbn` |
| `Factor.__mul__`, `__sub__`, `__div__`, `__floordiv__` (`factor.py:169-200`) | change and return their left operand instead of making a new factor | C229_false |
| `read_bn` (`read.py`) | nodes are listed in `topsort` (breadth-first) order, so a network that can be sampled may raise `KeyError` in `forward_sample` after saving and loading | C232_false |
| `BayesNet.add_edge`, `remove_edge` | leave the child's table as it was: afterwards `forward_sample` and `gibbs_sample` never return; `marginal_ve_e` never returns after `add_edge` and after `remove_edge` silently answers with the child frozen at the removed parent's first value; no form of `ve_map` returns after `add_edge` | C237_false, C238–C240, C243 |
| `BayesNet.__hash__`, `__eq__` | a network can be a dictionary key only for itself: looking up or storing under a copy raises `TypeError`; after `add_edge`/`remove_edge` the stored object itself is no longer found | C256_false, C257_… |
| `mi_test`, `mutual_information`, `entropy` | bins of equal width: with gaps in the codes (0, 1, 10) different values share a bin; a dependence disappears, `entropy` becomes `nan` | `C261_false`, `C261_entropy_false` |
| `mle_estimator` (`mle.py:177`) for some nodes | `bn.F = F` drops all other nodes; both estimators take column `i` for the `i`-th listed node and count under the first value of an unlisted parent | C268_false, C268_false_table, C269 |
| `loopy_bp` | uses names that are not imported (`NameError` on every call); not stated as a theorem | – |

## 5. Not modelled

Floating point, except in exact inference and parameter learning (C166-C168, C273, C274: relative rounding errors, no over- or underflow; elsewhere numbers are exact); printing and plotting (`plotting/`); the solver behind `ilp_map` (a parameter assumed to return
an optimum) and `gobnilp`; the functions whose first statements cannot be executed at all (`chi2_test`,
`mmhc`, `TAN`, `ClusterGraph`, `loopy_bp`, `feature_selection`: undefined names or modules); of `mle_fast`, `lambda_iamb`, `mmpc`, `predict` and the Bayesian scores only the part up to the statement that raises (C196); the widths of numpy string arrays when conditioning
columns are joined, and integer overflow of the joined code; the interior of
`networkx`, `numpy`, `scipy`, `json` (assumed to do what their documentation says).

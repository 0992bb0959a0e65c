import Verif.Props.LearnState

/-!
# C272: what is learned about a node depends on the columns of its family only
-/

set_option linter.unusedSectionVars false

namespace PyBN
open BayesNet

/-- The two arrays have the same number of rows and the same column `i`. -/
def SameColumn (d d' : Data) (i : ℕ) : Prop := d.rows.map (fun row => row[i]?) = d'.rows.map (fun row => row[i]?)

theorem sameColumn_values {d d' : Data} {i : ℕ} (h : SameColumn d d' i) {vs : List ℤ} (hv : d.IsValues i vs) : d'.IsValues i vs := by
  refine ⟨hv.1, fun x => ?_⟩
  have e : ∀ D : Data, (∃ row ∈ D.rows, row[i]? = some x) ↔ some x ∈ D.rows.map (fun row => row[i]?) := fun D => by simp
  rw [hv.2, e, e, h]

theorem countP_columns {fam : List ℕ} {P Q : List ℤ → Bool} (hPQ : ∀ r r' : List ℤ, (∀ u ∈ fam, r[u]? = r'[u]?) → P r = Q r') : ∀ (l l' : List (List ℤ)), l.length = l'.length →
    (∀ u ∈ fam, l.map (fun row => row[u]?) = l'.map (fun row => row[u]?)) → l.countP P = l'.countP Q
  | [], [], _, _ => rfl
  | [], _ :: _, h, _ => by simp at h
  | _ :: _, [], h, _ => by simp at h
  | r :: l, r' :: l', h, hc => by
    have h0 : P r = Q r' := hPQ r r' fun u hu => by have := hc u hu; simp only [List.map_cons, List.cons.injEq] at this; exact this.1
    have h1 := countP_columns hPQ l l' (by simpa using h) fun u hu => by have := hc u hu; simp only [List.map_cons, List.cons.injEq] at this; exact this.2
    rw [List.countP_cons, List.countP_cons, h0, h1]

theorem count_local {d d' : Data} {fam : List ℕ} (hl : d.rows.length = d'.rows.length) (h : ∀ u ∈ fam, SameColumn d d' u) {vals vals' : ℕ → List ℤ}
    (hv : ∀ u ∈ fam, vals u = vals' u) (a : Asg ℕ) :
    d.rows.countP (fun row => decide (MatchesOrLast vals fam a row)) = d'.rows.countP fun row => decide (MatchesOrLast vals' fam a row) :=
  countP_columns (fam := fam) (fun r r' hr => by
    rw [decide_eq_decide]
    unfold MatchesOrLast
    exact forall₂_congr fun u hu => by rw [hr u hu, hv u hu]) _ _ hl h

/-- Two tables over the same family with the same entries are equal. -/
theorem table_eq {c c' : ℕ → ℕ} {o : List ℕ} (hn : o.Nodup) (hc : ∀ u ∈ o, c u = c' u) {t t' : List ℚ} (ht : t.length = (o.map c).prod) (ht' : t'.length = (o.map c').prod)
    (h : ∀ a, InRange c o a → t[enc c o a]? = t'[enc c' o a]?) : t = t' := by
  have hmap : o.map c = o.map c' := List.map_congr_left hc
  have henc : ∀ (o' : List ℕ) (a : Asg ℕ), (∀ u ∈ o', c u = c' u) → enc c' o' a = enc c o' a := by
    intro o'
    induction o' with
    | nil => intro _ _; rfl
    | cons v o' ih => intro a hh; simp only [enc]; rw [hh v (by simp), ih a fun u hu => hh u (by simp [hu])]
  apply List.ext_getElem?
  intro i
  by_cases hi : i < (o.map c).prod
  · obtain ⟨a, ha, rfl⟩ := enc_surj hn hi
    rw [h a ha, henc o a hc]
  · rw [List.getElem?_eq_none (by omega), List.getElem?_eq_none (by rw [ht', ← hmap]; omega)]

theorem entry_eq {b b' : BayesNet ℕ ℤ} {v : ℕ} (h1 : (b.F.get? v).isSome) (h2 : (b'.F.get? v).isSome) (hp : b.parentsOf v = b'.parentsOf v) (hv : b.valuesOf v = b'.valuesOf v)
    (ht : b.cptOf v = b'.cptOf v) : b.F.get? v = b'.F.get? v := by
  unfold parentsOf at hp
  unfold valuesOf at hv
  unfold cptOf at ht
  cases g1 : b.F.get? v with
  | none => rw [g1] at h1; cases h1
  | some d =>
    cases g2 : b'.F.get? v with
    | none => rw [g2] at h2; cases h2
    | some e =>
      rw [g1, g2] at hp hv ht
      obtain ⟨p, x, t⟩ := d
      obtain ⟨p', x', t'⟩ := e
      dsimp only at hp hv ht
      rw [hp, hv, ht]

/-- **C272** (`mle_estimator`): the values, parents and table learned for `v` are the same from two data sets that have the same number of rows and the same columns for `v` and its
parents, both at the positions where the estimator looks for values (the positions of these nodes in the node list) and at the columns they name. -/
theorem C272_mle (hE hE' : HashOrder (ℕ × ℤ)) (hI hI' : HashOrder ℤ) (bn : BayesNet ℕ ℤ) (s : bn.Shape) (d d' : Data) (hf : d.Fits bn.V) (hf' : d'.Fits bn.V)
    (nodes : Option (List ℕ)) (hns : (nodes.getD bn.V).Perm bn.V) (hEk : ∀ v ∈ bn.V, v ∈ bn.E.keys) :
    ∃ b b', mleEstimator hE hI bn d nodes = .ok b ∧ mleEstimator hE' hI' bn d' nodes = .ok b' ∧
      ∀ v ∈ bn.V, d.rows.length = d'.rows.length → (∀ u ∈ v :: bn.parentsOf v, SameColumn d d' u ∧ SameColumn d d' ((nodes.getD bn.V).idxOf u)) → b'.F.get? v = b.F.get? v := by
  obtain ⟨b, h1, _, _, hdom, hval, hp, htab⟩ := mle_ok hE hI bn s d hf nodes hns hEk
  obtain ⟨b', h1', _, _, hdom', hval', hp', htab'⟩ := mle_ok hE' hI' bn s d' hf' nodes hns hEk
  refine ⟨b, b', h1, h1', fun v hv hl hcol => ?_⟩
  have hfam : ∀ u ∈ v :: bn.parentsOf v, u ∈ bn.V := by
    intro u hu
    rcases List.mem_cons.1 hu with rfl | hu
    · exact hv
    · exact s.parents_mem v hv u hu
  have hvals : ∀ u ∈ v :: bn.parentsOf v, b.valuesOf u = b'.valuesOf u := fun u hu =>
    (sameColumn_values (hcol u hu).2 (hval u (hfam u hu)).1).unique (hval' u (hfam u hu)).1
  have hcard : ∀ u ∈ v :: bn.parentsOf v, b.cardOf u = b'.cardOf u := fun u hu => by rw [card_eq_len, card_eq_len]; show List.length _ = List.length _; rw [hvals u hu]
  have hnd : (nodes.getD bn.V).Nodup := hns.nodup_iff.2 s.nodup
  refine (entry_eq ((hdom v).2 hv) ((hdom' v).2 hv) (sublist_ext hnd (hp v hv).1 (hp' v hv).1 fun p => by rw [(hp v hv).2, (hp' v hv).2]) (hvals v List.mem_cons_self) ?_).symm
  refine table_eq (s.fam_nodup v hv) hcard (htab v hv).1 (htab' v hv).1 fun a ha => ?_
  rw [(htab v hv).2 a ha, (htab' v hv).2 a fun u hu => by rw [← hcard u hu]; exact ha u hu,
    count_local hl (fun u hu => (hcol u hu).1) hvals, count_local (fam := bn.parentsOf v) hl (fun u hu => (hcol u (List.mem_cons_of_mem _ hu)).1)
      fun u hu => hvals u (List.mem_cons_of_mem _ hu)]

/-- **C272** (`bayes_estimator`). -/
theorem C272_bayes (hE hE' : HashOrder (ℕ × ℤ)) (hI hI' : HashOrder ℤ) (bn : BayesNet ℕ ℤ) (s : bn.Shape) (d d' : Data) (hf : d.Fits bn.V) (hf' : d'.Fits bn.V)
    (nodes : Option (List ℕ)) (hns : (nodes.getD bn.V).Perm bn.V) (equiv : Option ℚ) (he : ∀ e ∈ equiv, 0 < e) :
    ∃ b b', bayesEstimator hE hI bn d equiv nodes = .ok b ∧ bayesEstimator hE' hI' bn d' equiv nodes = .ok b' ∧
      ∀ v ∈ bn.V, d.rows.length = d'.rows.length → (∀ u ∈ v :: bn.parentsOf v, SameColumn d d' u ∧ SameColumn d d' ((nodes.getD bn.V).idxOf u)) → b'.F.get? v = b.F.get? v := by
  obtain ⟨b, h1, hV, _, w, hval, hp, htab⟩ := bayes_ok hE hI bn s d hf nodes hns equiv he
  obtain ⟨b', h1', hV', _, w', hval', hp', htab'⟩ := bayes_ok hE' hI' bn s d' hf' nodes hns equiv he
  refine ⟨b, b', h1, h1', fun v hv hl hcol => ?_⟩
  have hfam : ∀ u ∈ v :: bn.parentsOf v, u ∈ bn.V := by
    intro u hu
    rcases List.mem_cons.1 hu with rfl | hu
    · exact hv
    · exact s.parents_mem v hv u hu
  have hvals : ∀ u ∈ v :: bn.parentsOf v, b.valuesOf u = b'.valuesOf u := fun u hu =>
    (sameColumn_values (hcol u hu).2 (hval u (hfam u hu))).unique (hval' u (hfam u hu))
  have hcard : ∀ u ∈ v :: bn.parentsOf v, b.cardOf u = b'.cardOf u := fun u hu => by rw [card_eq_len, card_eq_len]; show List.length _ = List.length _; rw [hvals u hu]
  have hlen : (b.cptOf v).length = (b'.cptOf v).length := by rw [(htab v hv).1, (htab' v hv).1, List.map_congr_left hcard]
  refine (entry_eq ((w.dom v).2 (hV ▸ hv)) ((w'.dom v).2 (hV' ▸ hv)) (by rw [hp, hp']) (hvals v List.mem_cons_self) ?_).symm
  refine table_eq (s.fam_nodup v hv) hcard (htab v hv).1 (htab' v hv).1 fun a ha => ?_
  rw [(htab v hv).2 a ha, (htab' v hv).2 a fun u hu => by rw [← hcard u hu]; exact ha u hu,
    count_local hl (fun u hu => (hcol u hu).1) hvals, count_local (fam := bn.parentsOf v) hl (fun u hu => (hcol u (List.mem_cons_of_mem _ hu)).1)
      fun u hu => hvals u (List.mem_cons_of_mem _ hu), hlen, hcard v List.mem_cons_self, hl]

/-- Non-trivial: the column of node 1 is changed, node 0 learns the same and node 1 does not. -/
theorem C272_example : pairNet.Shape ∧ (∀ u ∈ 0 :: pairNet.parentsOf 0, SameColumn ⟨2, [[0, 5], [1, 7], [1, 7]]⟩ ⟨2, [[0, 5], [1, 5], [1, 7]]⟩ u ∧
      SameColumn ⟨2, [[0, 5], [1, 7], [1, 7]]⟩ ⟨2, [[0, 5], [1, 5], [1, 7]]⟩ (pairNet.V.idxOf u)) ∧
    (mleEstimator .id .id pairNet ⟨2, [[0, 5], [1, 7], [1, 7]]⟩ none).okAnd (fun b =>
      (mleEstimator .id .id pairNet ⟨2, [[0, 5], [1, 5], [1, 7]]⟩ none).okAnd fun b' => decide (b'.cptOf 0 = b.cptOf 0 ∧ b'.cptOf 1 ≠ b.cptOf 1)) = true := by
  refine ⟨pairNet_shape, ?_, by decide +kernel⟩
  unfold SameColumn
  decide +kernel

end PyBN

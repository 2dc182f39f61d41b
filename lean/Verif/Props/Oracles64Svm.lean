import Verif.Props.Oracles64

/-! # C126: the SVM oracle in IEEE `f64` and in arithmetic rounded to 53 bits -/

namespace Ellalgo

theorem Arr.Same.rect {r c : Nat} {p : Arr B64} {q : Arr (Fl bin53)} (h : p.Same q) (hq : q.IsMatShape r c) :
    p.IsMatShape r c ∧ ∀ i j, i < r → j < c → Ellalgo.Same (p.mat i j) (q.mat i j) := by
  refine ⟨⟨h.rows.trans hq.1, h.cols.trans hq.2.1, h.data.length_eq.trans hq.2.2⟩, fun i j hi hj => ?_⟩
  unfold Arr.mat
  rw [h.cols]
  refine h.get _ ?_
  rw [hq.2.2, hq.2.1]
  exact rm_lt hi hj

/-- a row of two tables with the same numbers -/
theorem Arr.Same.row {r c : Nat} {p : Arr B64} {q : Arr (Fl bin53)} (h : p.Same q) (hq : q.IsMatShape r c) (hc : 0 < c) {i : Nat} (hi : i < r) :
    ∃ a a', p.row i = .ok a ∧ q.row i = .ok a' ∧ IsVec a c (p.mat i) ∧ IsVec a' c (q.mat i) := by
  obtain ⟨hp, -⟩ := h.rect hq
  obtain ⟨a, h1, h2⟩ := row_spec hp.isMat hc hi
  obtain ⟨a', h3, h4⟩ := row_spec hq.isMat hc hi
  exact ⟨a, a', h1, h3, h2, h4⟩

section svm
variable {m n : Nat} {o : SvmOracle B64} {o' : SvmOracle (Fl bin53)} {x : Arr B64} {x' : Arr (Fl bin53)}

theorem svm_search_same (ho : o.Same64 o') (hx : x.Same x') (ok : o'.Safe m n x') {w : Arr B64} {w' : Arr (Fl bin53)}
    (hw : IsVec w n x.vec) (hw' : IsVec w' n x'.vec) :
    ∃ s t, o.search w (x.vec n) = .ok s ∧ o'.search w' (x'.vec n) = .ok t ∧ OptRel Same s.1 t.1 ∧ s.2 = t.2 ∧ (t.1 ≠ none → t.2 < m) := by
  unfold SvmOracle.search
  have hr : o.data.rows = m := ho.data.rows.trans ok.data.1
  rw [hr, ok.data.1]
  refine forRange_rel (s := ((none : Option B64), (0 : Nat))) (t := ((none : Option (Fl bin53)), (0 : Nat)))
    (fun (s : Option B64 × Nat) (t : Option (Fl bin53) × Nat) => OptRel Same s.1 t.1 ∧ s.2 = t.2 ∧ (t.1 ≠ none → t.2 < m)) ⟨trivial, rfl, fun h => (h rfl).elim⟩ ?_
  rintro i ⟨f, k⟩ ⟨f', k'⟩ - hi ⟨hf, hk, hlt⟩
  simp only at hf hk hlt
  subst hk
  obtain ⟨a, a', h1, h2, h3, h4⟩ := ho.data.row ok.data ok.pos hi
  have hlen : i < o'.labels.length := by rw [ok.labels.1]; exact hi
  have hl : o'.labels[i]? = some (o'.labels.getD i 0) := by
    rw [List.getD_eq_getElem?_getD, List.getElem?_eq_getElem hlen]; rfl
  have hy : Same (Scalar.ofInt (o'.labels.getD i 0)) (Scalar.ofInt (o'.labels.getD i 0)) := by
    refine Same.ofInt (ok.labels.2 _ ?_)
    rw [List.getD_eq_getElem?_getD, List.getElem?_eq_getElem hlen]
    exact List.getElem_mem hlen
  have hd : Same (dotV n x.vec (o.data.mat i)) (dotV n x'.vec (o'.data.mat i)) :=
    SameV.dot (fun j hj => hx.vec ok.point j (by omega)) (fun j hj => (ho.data.rect ok.data).2 i j hi hj) (ok.dot i hi)
  have hm := hy.mul (hd.add (hx.vec ok.point n (by omega)) (ok.bias i hi)) (ok.margin i hi)
  have e1 : w.dot a = .ok (dotV n x.vec (o.data.mat i)) := dot_spec hw h3
  have e2 : w'.dot a' = .ok (dotV n x'.vec (o'.data.mat i)) := dot_spec hw' h4
  simp only [ho.labels, hl, Res.ofOption, Res.ok_bind, h1, h2, e1, e2]
  cases f <;> cases f'
  · simp only [ltInf_same hm]
    split_ifs
    · exact ⟨_, _, rfl, rfl, hm, rfl, fun _ => hi⟩
    · exact ⟨_, _, rfl, rfl, hf, rfl, hlt⟩
  · exact hf.elim
  · exact hf.elim
  · rename_i f f'
    have hf' : Same f f' := hf
    simp only [hm.lt hf']
    split_ifs
    · exact ⟨_, _, rfl, rfl, hm, rfl, fun _ => hi⟩
    · exact ⟨_, _, rfl, rfl, hf, rfl, hlt⟩

/-- C126: a query of the SVM oracle whose operations stay in range gives the same answer in `f64` as in arithmetic rounded to 53 bits. -/
theorem C126_svm_optim : SameOptim (SvmOracle.oracle : OracleOptim _ (Arr B64) (SingleCut B64) B64) SvmOracle.oracle
    SvmOracle.Same64 (fun o x _ => o.Safe m n x) := by
  intro o o' x x' γ γ' ho hx hγ ok
  have hp := hx.vecShape ok.point
  have hmap : (List.range n).mapM (fun i => x.idx i) = .ok ((List.range n).map fun i => x.vec i) :=
    mapM_range_ok n fun i hi => hp.isVec.idx (by omega)
  have hmap' : (List.range n).mapM (fun i => x'.idx i) = .ok ((List.range n).map fun i => x'.vec i) :=
    mapM_range_ok n fun i hi => ok.point.isVec.idx (by omega)
  have hw : IsVec (⟨(List.range n).map fun i => x.vec i, n, 0⟩ : Arr B64) n x.vec := ⟨rfl, rfl, by simp, fun i hi => by simp [hi]⟩
  have hw' : IsVec (⟨(List.range n).map fun i => x'.vec i, n, 0⟩ : Arr (Fl bin53)) n x'.vec :=
    ⟨rfl, rfl, by simp, fun i hi => by simp [hi]⟩
  have hb : x.idx n = .ok (x.vec n) := hp.isVec.idx (by omega)
  have hb' : x'.idx n = .ok (x'.vec n) := ok.point.isVec.idx (by omega)
  obtain ⟨⟨f, k⟩, ⟨f', k'⟩, s1, s2, hf, hk, hlt⟩ := svm_search_same ho hx ok hw hw'
  simp only at hf hk hlt
  subst hk
  show Res.Rel _ (o.assess x γ) (o'.assess x' γ')
  unfold SvmOracle.assess
  simp only [ho.nfeat, ok.nfeat, hmap, hmap', hb, hb', s1, s2, Res.ok_bind]
  cases f with
  | none =>
    cases f' with
    | some v => exact hf.elim
    | none => exact ⟨⟨Arr.Same.new _, .zero⟩, rfl, .zero, ho⟩
  | some v =>
    cases f' with
    | none => exact hf.elim
    | some v' =>
      have hv : Same v v' := hf
      have hi : k < m := hlt (by simp)
      simp only [hv.ge .one]
      split_ifs
      · exact ⟨⟨Arr.Same.new _, .zero⟩, rfl, .zero, ho⟩
      · obtain ⟨a, a', h1, h2, h3, h4⟩ := ho.data.row ok.data ok.pos hi
        have hlen : k < o'.labels.length := by rw [ok.labels.1]; exact hi
        have hl : o'.labels[k]? = some (o'.labels.getD k 0) := by
          rw [List.getD_eq_getElem?_getD, List.getElem?_eq_getElem hlen]; rfl
        have hy : Same (Scalar.ofInt (o'.labels.getD k 0)) (Scalar.ofInt (o'.labels.getD k 0)) := by
          refine Same.ofInt (ok.labels.2 _ ?_)
          rw [List.getD_eq_getElem?_getD, List.getElem?_eq_getElem hlen]
          exact List.getElem_mem hlen
        simp only [ho.labels, hl, Res.ofOption, Res.ok_bind, h1, h2]
        refine ⟨⟨Arr.Same.ofList ?_, hv⟩, rfl, hv, ho⟩
        refine List.rel_append ?_ (.cons hy.neg .nil)
        refine List.forall₂_iff_get.2 ⟨by simp [h3.len, h4.len], fun j g1 g2 => ?_⟩
        have hj : j < n := by simpa [h3.len] using g1
        have q1 : a.data[j]'(by rw [h3.len]; exact hj) = o.data.mat k j := by
          have := h3.get j hj
          rw [List.getElem?_eq_getElem (by rw [h3.len]; exact hj)] at this
          exact Option.some.inj this
        have q2 : a'.data[j]'(by rw [h4.len]; exact hj) = o'.data.mat k j := by
          have := h4.get j hj
          rw [List.getElem?_eq_getElem (by rw [h4.len]; exact hj)] at this
          exact Option.some.inj this
        simp only [List.get_eq_getElem, List.getElem_map, q1, q2]
        exact hy.neg.mul ((ho.data.rect ok.data).2 k j hi hj) (ok.grad k hi j hj)

end svm
end Ellalgo

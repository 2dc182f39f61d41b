import Verif.Model.Lmi
import Verif.Lib.Rep

/-! `LMIOldOracle` and `LMIOracle` compute the same thing, for any scalar arithmetic. -/

namespace Ellalgo
variable {α : Type} [Scalar α]

/-- `c - f 0 - f 1 - ... - f (k-1)`, left to right -/
def subTo (c : α) (f : Nat → α) : Nat → α
  | 0 => c
  | k + 1 => subTo c f k - f k

theorem forRange_subTo {n : Nat} {f : Nat → α → Res α} {t : Nat → α} (c : α)
    (h : ∀ i acc, i < n → f i acc = .ok (acc - t i)) : forRange 0 n c f = .ok (subTo c t n) := by
  obtain ⟨s, hs, hp⟩ := forRange_spec (f := f) (fun i (acc : α) => acc = subTo c t i)
    (s := c) (Nat.zero_le n) rfl
    (by
      intro i acc _ hi hacc
      exact ⟨acc - t i, h i acc hi, by rw [hacc]; rfl⟩)
  rw [hs, hp]

theorem nthMat_ok {n : Nat} {fs : List (Arr α)} (h : ∀ f ∈ fs, f.IsMatShape n n) {k : Nat} (hk : k < fs.length) :
    nthMat fs k = .ok fs[k] ∧ IsMat fs[k] n n (fs[k]).mat :=
  ⟨by simp [nthMat, hk, Res.ofOption], (h _ (List.getElem_mem hk)).isMat⟩

/-- entry `(i,j)` of the `k`-th matrix -/
def fEntry (fs : List (Arr α)) (k i j : Nat) : α := (fs.getD k ⟨[], 0, 0⟩).mat i j

theorem fEntry_eq {fs : List (Arr α)} {k i j : Nat} (hk : k < fs.length) : fEntry fs k i j = (fs[k]).mat i j := by
  simp [fEntry, List.getD, hk]

theorem LMIOracle.elem_generic {n : Nat} {o : LMIOracle α} {x : Arr α}
    (hF : ∀ f ∈ o.matF, f.IsMatShape n n) (hB : o.matB.IsMatShape n n) (hx : x.len ≤ o.matF.length)
    {i j : Nat} (hi : i < n) (hj : j < n) :
    o.elem x i j = .ok (subTo (o.matB.mat i j) (fun k => fEntry o.matF k i j * x.vec k) x.len) := by
  unfold LMIOracle.elem
  rw [hB.isMat.getij hi hj]
  simp only [Res.ok_bind]
  apply forRange_subTo
  intro k acc hk
  obtain ⟨h1, h2⟩ := nthMat_ok hF (Nat.lt_of_lt_of_le hk hx)
  rw [h1]
  simp only [Res.ok_bind]
  rw [h2.getij hi hj, fEntry_eq (Nat.lt_of_lt_of_le hk hx)]
  have hk' : k < x.data.length := hk
  simp [Arr.idx, Arr.vec, hk']

theorem LMIOracle.build_generic {n : Nat} {o : LMIOracle α} {x : Arr α}
    (hF : ∀ f ∈ o.matF, f.IsMatShape n n) (hB : o.matB.IsMatShape n n) (hx : x.len ≤ o.matF.length) :
    ∃ a, o.buildOld x = .ok a ∧ IsMat a n n (fun i j =>
      subTo (o.matB.mat i j) (fun k => fEntry o.matF k i j * x.vec k) x.len) := by
  unfold LMIOracle.buildOld
  rw [hB.1]
  apply forRange_spec (fun k (a : Arr α) => IsMat a n n (fun i j =>
      subTo (o.matB.mat i j) (fun k => fEntry o.matF k i j * x.vec k) k)) (Nat.zero_le _)
  · exact hB.isMat
  · intro k a _ hk ha
    have hk' : k < x.data.length := hk
    have hxk : x.idx k = .ok (x.vec k) := by simp [Arr.idx, Arr.vec, hk']
    rw [hxk]
    simp only [Res.ok_bind]
    obtain ⟨h1, h2⟩ := nthMat_ok hF (Nat.lt_of_lt_of_le hk hx)
    apply forRange_post (fun i (a : Arr α) => IsMat a n n (fun r c =>
      subTo (o.matB.mat r c) (fun k => fEntry o.matF k r c * x.vec k) (if r < i then k + 1 else k)))
      (Nat.zero_le _)
    · simpa using ha
    · intro i a _ hi ha
      apply forRange_post (fun j (a : Arr α) => IsMat a n n (fun r c =>
        subTo (o.matB.mat r c) (fun k => fEntry o.matF k r c * x.vec k)
          (if r < i ∨ (r = i ∧ c < j) then k + 1 else k))) (Nat.zero_le _)
      · simpa using ha
      · intro j a _ hj ha
        rw [h1, ha.getij hi hj]
        simp only [Res.ok_bind]
        rw [h2.getij hi hj]
        simp only [Res.ok_bind]
        obtain ⟨a', h3, h4⟩ := ha.set hi hj (subTo (o.matB.mat i j) (fun k => fEntry o.matF k i j * x.vec k)
          (if i < i ∨ (i = i ∧ j < j) then k + 1 else k) - (o.matF[k]'(Nat.lt_of_lt_of_le hk hx)).mat i j * x.vec k)
        refine ⟨a', by simpa using h3, h4.congr ?_⟩
        intro r c hr hc
        simp only [upd2]
        by_cases hrc : r = i ∧ c = j
        · obtain ⟨rfl, rfl⟩ := hrc
          simp only [true_and, lt_irrefl, or_self, if_false, if_true, false_or, Nat.lt_succ_self]
          rw [subTo, fEntry_eq (Nat.lt_of_lt_of_le hk hx)]
        · rw [if_neg hrc]
          have : (r < i ∨ r = i ∧ c < j) ↔ (r < i ∨ r = i ∧ c < j + 1) := by omega
          simp only [this]
      · intro a ha
        apply ha.congr
        intro r c hr hc
        have : (r < i ∨ r = i ∧ c < n) ↔ r < i + 1 := by omega
        simp only [this]
    · intro a ha
      apply ha.congr
      intro r c hr hc
      simp [hr]

theorem LDLTMgr.factorRow_congr {g1 g2 : Nat → Nat → Res α} {n start i : Nat} (hs : start ≤ i)
    (h : ∀ j, j ≤ i → g1 i j = g2 i j) (st : Arr α) :
    factorRow g1 n start i st = factorRow g2 n start i st := by
  unfold factorRow
  rw [h start hs]
  congr 1
  funext d0
  congr 1
  apply forRange_congr
  rintro j ⟨diag, st⟩ _ hj
  simp only [h (j + 1) (by omega)]

theorem LDLTMgr.factorLoop_congr {g1 g2 : Nat → Nat → Res α} {n : Nat}
    (h : ∀ i j, j ≤ i → i < n → g1 i j = g2 i j) (k : Nat) :
    ∀ i st, i + k ≤ n → factorLoop g1 n k i st = factorLoop g2 n k i st := by
  induction k with
  | zero => intro i st _; rfl
  | succ k ih =>
    intro i st hik
    unfold factorLoop
    rw [factorRow_congr (Nat.zero_le i) (fun j hj => h i j hj (by omega))]
    congr 1
    funext p
    obtain ⟨diag, st'⟩ := p
    simp only [ih (i + 1) st' (by omega)]

theorem LDLTMgr.factor_congr {g1 g2 : Nat → Nat → Res α} {m : LDLTMgr α}
    (h : ∀ i j, j ≤ i → i < m.ndim → g1 i j = g2 i j) : m.factor g1 = m.factor g2 := by
  unfold factor
  rw [factorLoop_congr h m.ndim 0 m.storage (by omega)]

theorem LMIOracle.assessOld_eq {n : Nat} {o : LMIOracle α} {x : Arr α}
    (hF : ∀ f ∈ o.matF, f.IsMatShape n n) (hB : o.matB.IsMatShape n n) (hm : o.mgr.ndim = n)
    (hx : x.len ≤ o.matF.length) : o.assessOld x = o.assess x := by
  obtain ⟨a, h1, h2⟩ := LMIOracle.build_generic hF hB hx
  unfold LMIOracle.assessOld LMIOracle.assess
  rw [h1]
  simp only [Res.ok_bind, LDLTMgr.factorize]
  rw [LDLTMgr.factor_congr (g2 := o.elem x)]
  intro i j hj hi
  rw [hm] at hi
  rw [h2.getij hi (by omega), LMIOracle.elem_generic hF hB hx hi (by omega)]

theorem LDLTMgr.witness_ndim {m m' : LDLTMgr α} {ep : α} (h : m.witness = .ok (ep, m')) : m'.ndim = m.ndim := by
  unfold witness at h
  simp only [Res.bind_eq_ok] at h
  obtain ⟨_, _, _, _, _, _, _, _, h⟩ := h
  simp only [Res.ok.injEq, Prod.mk.injEq] at h
  rw [← h.2]

theorem LDLTMgr.factor_ndim {m m' : LDLTMgr α} {b : Bool} {g : Nat → Nat → Res α}
    (h : m.factor g = .ok (b, m')) : m'.ndim = m.ndim := by
  unfold factor at h
  simp only [Res.bind_eq_ok] at h
  obtain ⟨_, _, h⟩ := h
  simp only [Res.ok.injEq, Prod.mk.injEq] at h
  rw [← h.2]

theorem LMIOracle.assess_data {o o' : LMIOracle α} {x : Arr α} {r : Option (Arr α × SingleCut α)}
    (h : o.assess x = .ok (r, o')) : o'.matF = o.matF ∧ o'.matB = o.matB ∧ o'.mgr.ndim = o.mgr.ndim := by
  unfold LMIOracle.assess at h
  rw [Res.bind_eq_ok] at h
  obtain ⟨⟨b, m1⟩, h1, h⟩ := h
  have e1 := LDLTMgr.factor_ndim h1
  cases b with
  | true =>
    simp only [if_true, Res.ok.injEq, Prod.mk.injEq] at h
    rw [← h.2]; exact ⟨rfl, rfl, e1⟩
  | false =>
    simp only [Bool.false_eq_true, if_false, Res.bind_eq_ok] at h
    obtain ⟨⟨ep, m2⟩, h2, g, _, h⟩ := h
    have e2 := LDLTMgr.witness_ndim h2
    simp only [Res.ok.injEq, Prod.mk.injEq] at h
    rw [← h.2]; exact ⟨rfl, rfl, e2.trans e1⟩

end Ellalgo

import Verif.Lib.NanLemmas
import Verif.Model.Lmi

/-! The factorisation of a matrix whose first entry is a NaN. -/

namespace Ellalgo
variable {α : Type} [Scalar α] {N : α → Prop}
open LDLTMgr

theorem factorRow_nan (hN : NanLaws N) {elem : Nat → Nat → Res α} {A : Nat → Nat → α} {n : Nat}
    (hA : ∀ i j, i < n → j < n → elem i j = .ok (A i j)) {i : Nat} (hi : i < n) {st : Arr α} {S : Nat → Nat → α}
    (hS : IsMat st n n S) (h0 : 0 < i → N (S 0 0)) (hA0 : i = 0 → N (A 0 0)) :
    ∃ d st' S', factorRow elem n 0 i st = .ok (d, st') ∧ N d ∧ IsMat st' n n S' ∧ N (S' 0 0) := by
  obtain ⟨p, hp, S1, hS1, hn1, -, hn2, hd⟩ := forRange_spec
    (f := fun j (p : α × Arr α) => do
      let (diag, st) := p
      let st ← st.setIdx (j * n + i) diag
      let djj ← st.idx (j * n + j)
      let val := diag / djj
      let st ← st.setIdx (i * n + j) val
      let stop := j + 1
      let s ← forRange 0 stop (0 : α) fun k s => do
        let a ← st.idx (i * n + k)
        let b ← st.idx (k * n + stop)
        .ok (s + a * b)
      let e ← elem i stop
      .ok (e - s, st))
    (fun j (p : α × Arr α) => ∃ S, IsMat p.2 n n S ∧ (0 < i → N (S 0 0)) ∧ (0 < j → N (S i 0)) ∧ (0 < j → N p.1) ∧
      (j = 0 → p.1 = A i 0))
    (s := (A i 0, st)) (Nat.zero_le i) ⟨S, hS, h0, by simp, by simp, by simp⟩
    (by
      rintro j ⟨diag, st⟩ - hj ⟨S, hS, h1, h2, h3, -⟩
      have hjn : j < n := by omega
      simp only at h3 hS
      obtain ⟨st1, e1, hS1⟩ := hS.setIdx hjn hi diag
      obtain ⟨st2, e2, hS2⟩ := hS1.setIdx hi hjn (diag / upd2 S j i diag j j)
      have hval : N (diag / upd2 S j i diag j j) := by
        rcases Nat.eq_zero_or_pos j with rfl | hj0
        · refine hN.div_right _ ?_
          simp only [upd2]
          rw [if_neg (by omega)]
          exact h1 (by omega)
        · exact hN.div_left (h3 hj0) _
      set S2 := upd2 (upd2 S j i diag) i j (diag / upd2 S j i diag j j) with hS2d
      have hi0 : N (S2 i 0) := by
        rw [hS2d]
        rcases Nat.eq_zero_or_pos j with rfl | hj0
        · simp only [upd2, and_self, if_true]
          simpa only [upd2] using hval
        · simp only [upd2]
          rw [if_neg (by omega), if_neg (by omega)]
          exact h2 hj0
      have h00 : N (S2 0 0) := by
        rw [hS2d]
        simp only [upd2]
        rw [if_neg (by omega), if_neg (by omega)]
        exact h1 (by omega)
      obtain ⟨s, es, hs⟩ := forRange_spec
        (f := fun k (s : α) => do
          let a ← st2.idx (i * n + k)
          let b ← st2.idx (k * n + (j + 1))
          .ok (s + a * b))
        (fun k (s : α) => 0 < k → N s) (s := (0 : α)) (Nat.zero_le (j + 1)) (by simp)
        (by
          intro k s _ hk hs
          rw [hS2.idx hi (by omega : k < n), hS2.idx (by omega : k < n) (by omega : j + 1 < n)]
          simp only [Res.ok_bind]
          refine ⟨_, rfl, fun _ => ?_⟩
          rcases Nat.eq_zero_or_pos k with rfl | hk0
          · exact hN.add_right _ (hN.mul_left hi0 _)
          · exact hN.add_left (hs hk0) _)
      refine ⟨(A i (j + 1) - s, st2), ?_, S2, hS2, fun _ => h00, fun _ => hi0, fun _ => hN.sub_right _ (hs (by omega)),
        by omega⟩
      simp only [e1, Res.ok_bind, hS1.idx hjn hjn, e2, es, hA i (j + 1) hi (by omega)])
  obtain ⟨diag, st1⟩ := p
  simp only at hS1 hn2 hd
  have hN' : N diag := by
    rcases Nat.eq_zero_or_pos i with rfl | hi0
    · rw [hd rfl]; exact hA0 rfl
    · exact hn2 hi0
  obtain ⟨st2, e2, hS2⟩ := hS1.setIdx hi hi diag
  refine ⟨diag, st2, _, ?_, hN', hS2, ?_⟩
  · unfold factorRow
    simp only [hA i 0 hi (by omega), Res.ok_bind]
    erw [hp]
    simp only [Res.ok_bind, e2]
  · simp only [upd2]
    split
    · exact hN'
    · exact hn1 (by omega)

theorem factorLoop_nan (hN : NanLaws N) {elem : Nat → Nat → Res α} {A : Nat → Nat → α} {n : Nat}
    (hA : ∀ i j, i < n → j < n → elem i j = .ok (A i j)) (hA0 : N (A 0 0)) (k : Nat) :
    ∀ (i : Nat) (st : Arr α) (S : Nat → Nat → α), i + k = n → IsMat st n n S → (0 < i → N (S 0 0)) →
      ∃ st', factorLoop elem n k i st = .ok ((0, 0), st') ∧ st'.IsMatShape n n := by
  induction k with
  | zero => intro i st S _ hS _; exact ⟨st, rfl, hS.shape⟩
  | succ k ih =>
    intro i st S hik hS h0
    obtain ⟨d, st', S', h1, h2, h3, h4⟩ := factorRow_nan hN hA (by omega : i < n) hS h0 fun _ => hA0
    obtain ⟨st2, h5, h6⟩ := ih (i + 1) st' S' (by omega) h3 fun _ => h4
    refine ⟨st2, ?_, h6⟩
    simp only [factorLoop, h1, Res.ok_bind, hN.le_left h2, Bool.false_eq_true, if_false, h5]

theorem factor_nan (hN : NanLaws N) {elem : Nat → Nat → Res α} {A : Nat → Nat → α} {m : LDLTMgr α}
    (hm : m.storage.IsMatShape m.ndim m.ndim)
    (hA : ∀ i j, i < m.ndim → j < m.ndim → elem i j = .ok (A i j)) (hA0 : N (A 0 0)) :
    ∃ m', m.factor elem = .ok (true, m') := by
  obtain ⟨st', h1, -⟩ := factorLoop_nan hN hA hA0 m.ndim 0 m.storage _ (by omega) hm.isMat (by simp)
  exact ⟨{ m with pos := (0, 0), storage := st' }, by simp only [factor, h1, Res.ok_bind]; rfl⟩

end Ellalgo

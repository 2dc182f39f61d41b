import Verif.Model.Ldlt
import Verif.Spec.Mat
import Verif.Lib.Rep

/-! The LDLᵀ factorisation over any scalar type: what ends up in the storage. -/

namespace Ellalgo
variable {α : Type} [Scalar α]

namespace LDLTMgr

/-- the value stored at `(b, i)`, computed from `A i b` and the entries stored before -/
def entryG (A S : Nat → Nat → α) (i b : Nat) : α :=
  if b = 0 then A i 0 else A i b - sumTo b fun k => S i k * S k b

/-- the storage after rows `0..i` -/
def BlkG (A S : Nat → Nat → α) (i : Nat) : Prop :=
  ∀ a, a < i → (∀ b, b ≤ a → S b a = entryG A S a b) ∧ (∀ b, b < a → S a b = S b a / S b b)

theorem entryG_congr {A S S' : Nat → Nat → α} {i b : Nat} (h : ∀ k, k < b → S i k = S' i k ∧ S k b = S' k b) :
    entryG A S i b = entryG A S' i b := by
  unfold entryG
  split
  · rfl
  · rw [sumTo_congr fun k hk => by rw [(h k hk).1, (h k hk).2]]

theorem factorRow_generic {getElem : Nat → Nat → Res α} {A : Nat → Nat → α} {n i : Nat} {st : Arr α}
    {S : Nat → Nat → α} (hst : IsMat st n n S) (hi : i < n)
    (hA : ∀ j, j ≤ i → getElem i j = .ok (A i j)) :
    ∃ st' S', factorRow getElem n 0 i st = .ok (S' i i, st') ∧ IsMat st' n n S' ∧
      (∀ a b, a < i → b < i → S' a b = S a b) ∧
      (∀ b, b ≤ i → S' b i = entryG A S' i b) ∧
      (∀ b, b < i → S' i b = S' b i / S' b b) := by
  obtain ⟨⟨dg, st1⟩, h1, ⟨S1, hm1, hold, hrow, hdiag⟩⟩ := forRange_spec
    (f := fun j (p : α × Arr α) => (do
      let (diag, st) := p
      let st ← st.setIdx (j * n + i) diag
      let djj ← st.idx (j * n + j)
      let val := diag / djj
      let st ← st.setIdx (i * n + j) val
      let stop := j + 1
      let s ← forRange 0 stop (0 : α) fun k s => do
        let a ← st.idx (i * n + k)
        let b ← st.idx (k * n + stop)
        .ok (s + a * b)
      let e ← getElem i stop
      .ok (e - s, st) : Res (α × Arr α)))
    (fun j p => ∃ S', IsMat p.2 n n S' ∧ (∀ a b, a < i → b < i → S' a b = S a b) ∧
      (∀ b, b < j → S' b i = entryG A S' i b ∧ S' i b = S' b i / S' b b) ∧
      p.1 = entryG A S' i j)
    (s := (A i 0, st)) (Nat.zero_le i)
    ⟨S, hst, fun _ _ _ _ => rfl, fun b h2 => absurd h2 (by omega), by simp [entryG]⟩
    (by
      rintro j ⟨diag, st⟩ - hj2 ⟨S', hm, hold, hrow, hd⟩
      obtain ⟨sta, ha, hma⟩ := hm.setIdx (i := j) (j := i) (by omega) hi diag
      have hdj : sta.idx (j * n + j) = .ok (S' j j) := by
        rw [hma.idx (by omega) (by omega)]
        simp only [upd2]; rw [if_neg (by omega)]
      obtain ⟨stb, hb, hmb⟩ := hma.setIdx (i := i) (j := j) hi (by omega) (diag / S' j j)
      set S2 := upd2 (upd2 S' j i diag) i j (diag / S' j j) with hS2
      have hsum : (forRange 0 (j + 1) (0 : α) fun k s => do
          let a ← stb.idx (i * n + k)
          let b ← stb.idx (k * n + (j + 1))
          .ok (s + a * b)) = .ok (sumTo (j + 1) fun k => S2 i k * S2 k (j + 1)) := by
        apply forRange_sum
        intro k acc hk2
        rw [hmb.idx hi (by omega), hmb.idx (by omega) (by omega)]
        rfl
      have e1 : ∀ a b, a < i → b < i → S2 a b = S' a b := by
        intro a b h1 h2
        simp only [hS2, upd2]
        rw [if_neg (by omega), if_neg (by omega)]
      have e2 : ∀ b, b < i → b ≠ j → S2 b i = S' b i ∧ S2 i b = S' i b := by
        intro b h1 h2
        simp only [hS2, upd2]
        rw [if_neg (by omega), if_neg (by omega), if_neg (by omega), if_neg (by omega)]
        exact ⟨rfl, rfl⟩
      have e3 : S2 j i = diag := by simp only [hS2, upd2]; rw [if_neg (by omega)]; simp
      have e4 : S2 i j = diag / S' j j := by simp [hS2, upd2]
      refine ⟨(A i (j + 1) - (sumTo (j + 1) fun k => S2 i k * S2 k (j + 1)), stb), ?_, S2, hmb, ?_, ?_, ?_⟩
      · simp only [ha, Res.ok_bind, hdj, hb, hsum, hA (j + 1) (by omega)]
      · intro a b h1 h2
        rw [e1 a b h1 h2, hold a b h1 h2]
      · intro b h2
        have hsumeq : entryG A S2 i b = entryG A S' i b :=
          entryG_congr fun k hk => ⟨(e2 k (by omega) (by omega)).2, e1 k b (by omega) (by omega)⟩
        by_cases hbj : b = j
        · subst hbj
          rw [hsumeq, e3, e4, e1 b b (by omega) (by omega)]
          exact ⟨hd, rfl⟩
        · rw [hsumeq, (e2 b (by omega) hbj).1, (e2 b (by omega) hbj).2, e1 b b (by omega) (by omega)]
          exact hrow b (by omega)
      · simp [entryG])
  obtain ⟨st2, h2, hm2⟩ := hm1.setIdx (i := i) (j := i) hi hi dg
  set S2 := upd2 S1 i i dg with hS2
  have e1 : ∀ a b, ¬ (a = i ∧ b = i) → S2 a b = S1 a b := by
    intro a b h
    simp only [hS2, upd2]; rw [if_neg h]
  have eii : S2 i i = dg := by simp [hS2, upd2]
  refine ⟨st2, S2, ?_, hm2, ?_, ?_, ?_⟩
  · unfold factorRow
    simp only [hA 0 (Nat.zero_le _), Res.ok_bind]
    refine (congrArg (· >>= _) h1).trans ?_
    simp only [Res.ok_bind, h2, eii]
  · intro a b ha hb
    rw [e1 a b (by omega), hold a b ha hb]
  · intro b h2
    have hsumeq : entryG A S2 i b = entryG A S1 i b :=
      entryG_congr fun k hk => ⟨e1 i k (by omega), e1 k b (by omega)⟩
    rw [hsumeq]
    by_cases hbi : b = i
    · subst hbi; rw [eii]; exact hdiag
    · rw [e1 b i (by omega)]; exact (hrow b (by omega)).1
  · intro b h2
    rw [e1 i b (by omega), e1 b i (by omega), e1 b b (by omega)]
    exact (hrow b h2).2

theorem BlkG.extend {A S S' : Nat → Nat → α} {i : Nat} (h : BlkG A S i)
    (hold : ∀ a b, a < i → b < i → S' a b = S a b)
    (h1 : ∀ b, b ≤ i → S' b i = entryG A S' i b)
    (h2 : ∀ b, b < i → S' i b = S' b i / S' b b) : BlkG A S' (i + 1) := by
  intro a ha2
  by_cases hai : a = i
  · subst hai; exact ⟨h1, h2⟩
  · have hlt : a < i := by omega
    obtain ⟨g1, g2⟩ := h a hlt
    refine ⟨fun b hb2 => ?_, fun b hb2 => ?_⟩
    · rw [hold b a (by omega) hlt, g1 b hb2]
      exact entryG_congr fun k hk => ⟨(hold a k hlt (by omega)).symm, (hold k b (by omega) (by omega)).symm⟩
    · rw [hold a b hlt (by omega), hold b a (by omega) hlt, hold b b (by omega) (by omega)]
      exact g2 b hb2

/-- The accepted pivots and, on failure, the first rejected one. -/
theorem factorLoop_generic {getElem : Nat → Nat → Res α} {A : Nat → Nat → α} {n : Nat}
    (hA : ∀ i j, j ≤ i → i < n → getElem i j = .ok (A i j)) (k : Nat) :
    ∀ (i : Nat) (st : Arr α) (S : Nat → Nat → α), i + k = n → IsMat st n n S → BlkG A S i →
      (∀ a, a < i → Scalar.le (S a a) 0 = false) →
      ∃ pos st' S', factorLoop getElem n k i st = .ok (pos, st') ∧ IsMat st' n n S' ∧
        ((pos = (0, 0) ∧ BlkG A S' n ∧ ∀ a, a < n → Scalar.le (S' a a) 0 = false) ∨
         (∃ m, m < n ∧ pos = (0, m + 1) ∧ BlkG A S' (m + 1) ∧ (∀ a, a < m → Scalar.le (S' a a) 0 = false) ∧
            Scalar.le (S' m m) 0 = true)) := by
  induction k with
  | zero =>
    intro i st S hik hm hb hp
    have : i = n := by omega
    subst this
    exact ⟨_, _, S, rfl, hm, Or.inl ⟨rfl, hb, hp⟩⟩
  | succ k ih =>
    intro i st S hik hm hb hp
    obtain ⟨st1, S1, hr, hm1, hold, h1, h2⟩ := factorRow_generic hm (by omega : i < n)
      (fun j hj => hA i j hj (by omega))
    have hb1 := hb.extend hold h1 h2
    have hp1 : ∀ a, a < i → Scalar.le (S1 a a) 0 = false := fun a ha => by rw [hold a a ha ha]; exact hp a ha
    unfold factorLoop
    simp only [hr, Res.ok_bind]
    cases hd : Scalar.le (S1 i i) 0 with
    | true => exact ⟨_, _, S1, by simp, hm1, Or.inr ⟨i, by omega, rfl, hb1, hp1, hd⟩⟩
    | false =>
      obtain ⟨pos, st', S', hl, hm', hh⟩ := ih (i + 1) st1 S1 (by omega) hm1 hb1 (by
        intro a ha
        by_cases hai : a = i
        · subst hai; exact hd
        · exact hp1 a (by omega))
      exact ⟨pos, st', S', by simp [hl], hm', hh⟩

theorem factor_generic {m : LDLTMgr α} {n : Nat} {getElem : Nat → Nat → Res α} {A : Nat → Nat → α}
    (hn : m.ndim = n) (hS : m.storage.IsMatShape n n)
    (hA : ∀ i j, j ≤ i → i < n → getElem i j = .ok (A i j)) :
    ∃ b m' S, m.factor getElem = .ok (b, m') ∧ m'.ndim = n ∧ IsMat m'.storage n n S ∧ m'.wit = m.wit ∧
      ((b = true ∧ m'.pos = (0, 0) ∧ BlkG A S n ∧ ∀ a, a < n → Scalar.le (S a a) 0 = false) ∨
       (b = false ∧ ∃ p, p < n ∧ m'.pos = (0, p + 1) ∧ BlkG A S (p + 1) ∧
          (∀ a, a < p → Scalar.le (S a a) 0 = false) ∧ Scalar.le (S p p) 0 = true)) := by
  obtain ⟨pos, st', S', hl, hm', hh⟩ := factorLoop_generic hA n 0 m.storage m.storage.mat (by omega) hS.isMat
    (fun a h2 => absurd h2 (by omega)) (fun a h => absurd h (by omega))
  refine ⟨LDLTMgr.isSpd { m with pos := pos, storage := st' }, { m with pos := pos, storage := st' }, S', ?_, hn, hm', rfl, ?_⟩
  · unfold factor
    rw [hn, hl]; rfl
  · rcases hh with ⟨h1, h2, h3⟩ | ⟨p, h1, h2, h3, h4, h5⟩
    · left; exact ⟨by simp [isSpd, h1], h1, h2, h3⟩
    · right; exact ⟨by simp [isSpd, h2], p, h1, h2, h3, h4, h5⟩

end LDLTMgr
end Ellalgo

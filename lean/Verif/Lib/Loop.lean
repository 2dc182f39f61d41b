import Verif.Model.Scalar
import Mathlib.Algebra.BigOperators.Group.Finset.Basic
import Mathlib.Algebra.BigOperators.Intervals

/-! Reasoning rules for the model's `for` loops. -/

namespace Ellalgo
variable {σ : Type}

theorem forN_spec {P : Nat → σ → Prop} {f : Nat → σ → Res σ} (k lo : Nat) (s : σ) (h0 : P lo s)
    (hstep : ∀ i s, lo ≤ i → i < lo + k → P i s → ∃ s', f i s = .ok s' ∧ P (i + 1) s') :
    ∃ s', forN k lo s f = .ok s' ∧ P (lo + k) s' := by
  induction k generalizing lo s with
  | zero => exact ⟨s, rfl, h0⟩
  | succ k ih =>
    obtain ⟨s1, h1, hp1⟩ := hstep lo s (le_refl _) (by omega) h0
    obtain ⟨s2, h2, hp2⟩ := ih (lo + 1) s1 hp1 (fun i s hi hi' hp => hstep i s (by omega) (by omega) hp)
    refine ⟨s2, ?_, ?_⟩
    · simp only [forN, h1, Res.ok_bind, h2]
    · rwa [show lo + (k + 1) = lo + 1 + k by omega]

/-- Hoare rule for ascending loops. -/
theorem forRange_spec (P : Nat → σ → Prop) {f : Nat → σ → Res σ} {lo hi : Nat} {s : σ} (hle : lo ≤ hi)
    (h0 : P lo s)
    (hstep : ∀ i s, lo ≤ i → i < hi → P i s → ∃ s', f i s = .ok s' ∧ P (i + 1) s') :
    ∃ s', forRange lo hi s f = .ok s' ∧ P hi s' := by
  have := forN_spec (P := P) (f := f) (hi - lo) lo s h0 (fun i s h1 h2 hp => hstep i s h1 (by omega) hp)
  rwa [show lo + (hi - lo) = hi by omega] at this

theorem forDownN_spec {P : Nat → σ → Prop} {f : Nat → σ → Res σ} (k lo : Nat) (s : σ) (h0 : P (lo + k) s)
    (hstep : ∀ i s, lo ≤ i → i < lo + k → P (i + 1) s → ∃ s', f i s = .ok s' ∧ P i s') :
    ∃ s', forDownN k lo s f = .ok s' ∧ P lo s' := by
  induction k generalizing s with
  | zero => exact ⟨s, rfl, h0⟩
  | succ k ih =>
    obtain ⟨s1, h1, hp1⟩ := hstep (lo + k) s (by omega) (by omega) h0
    obtain ⟨s2, h2, hp2⟩ := ih s1 hp1 (fun i s hi hi' hp => hstep i s (by omega) (by omega) hp)
    exact ⟨s2, by simp only [forDownN, h1, Res.ok_bind, h2], hp2⟩

/-- Hoare rule for descending loops: `P i` holds when indices `≥ i` have been processed. -/
theorem forDown_spec (P : Nat → σ → Prop) {f : Nat → σ → Res σ} {lo hi : Nat} {s : σ} (hle : lo ≤ hi)
    (h0 : P hi s)
    (hstep : ∀ i s, lo ≤ i → i < hi → P (i + 1) s → ∃ s', f i s = .ok s' ∧ P i s') :
    ∃ s', forDown lo hi s f = .ok s' ∧ P lo s' := by
  apply forDownN_spec (P := P) (f := f) (hi - lo) lo s
  · rwa [show lo + (hi - lo) = hi by omega]
  · intro i s h1 h2 hp; exact hstep i s h1 (by omega) hp

/-- Hoare rule with a postcondition, convenient for `refine`. -/
theorem forRange_post (P : Nat → σ → Prop) {Q : σ → Prop} {f : Nat → σ → Res σ} {lo hi : Nat} {s : σ}
    (hle : lo ≤ hi) (h0 : P lo s)
    (hstep : ∀ i s, lo ≤ i → i < hi → P i s → ∃ s', f i s = .ok s' ∧ P (i + 1) s')
    (hpost : ∀ s, P hi s → Q s) : ∃ s', forRange lo hi s f = .ok s' ∧ Q s' := by
  obtain ⟨s', h1, h2⟩ := forRange_spec P hle h0 hstep
  exact ⟨s', h1, hpost s' h2⟩

theorem forDown_post (P : Nat → σ → Prop) {Q : σ → Prop} {f : Nat → σ → Res σ} {lo hi : Nat} {s : σ}
    (hle : lo ≤ hi) (h0 : P hi s)
    (hstep : ∀ i s, lo ≤ i → i < hi → P (i + 1) s → ∃ s', f i s = .ok s' ∧ P i s')
    (hpost : ∀ s, P lo s → Q s) : ∃ s', forDown lo hi s f = .ok s' ∧ Q s' := by
  obtain ⟨s', h1, h2⟩ := forDown_spec P hle h0 hstep
  exact ⟨s', h1, hpost s' h2⟩

theorem forRange_self (lo : Nat) (s : σ) (f : Nat → σ → Res σ) : forRange lo lo s f = .ok s := by
  simp [forRange, forN]

theorem forRange_empty {lo hi : Nat} (h : hi ≤ lo) (s : σ) (f : Nat → σ → Res σ) :
    forRange lo hi s f = .ok s := by
  simp [forRange, Nat.sub_eq_zero_of_le h, forN]

theorem forRange_succ {lo hi : Nat} (h : lo < hi) (s : σ) (f : Nat → σ → Res σ) :
    forRange lo hi s f = (f lo s >>= fun s' => forRange (lo + 1) hi s' f) := by
  unfold forRange
  rw [show hi - lo = (hi - (lo + 1)) + 1 by omega]
  rfl

theorem forN_congr {f g : Nat → σ → Res σ} (k lo : Nat) (s : σ)
    (h : ∀ i s, lo ≤ i → i < lo + k → f i s = g i s) : forN k lo s f = forN k lo s g := by
  induction k generalizing lo s with
  | zero => rfl
  | succ k ih =>
    simp only [forN]
    rw [h lo s (le_refl _) (by omega)]
    congr 1
    funext s'
    exact ih _ _ (fun i s h1 h2 => h i s (by omega) (by omega))

theorem forRange_congr {f g : Nat → σ → Res σ} {lo hi : Nat} {s : σ}
    (h : ∀ i s, lo ≤ i → i < hi → f i s = g i s) : forRange lo hi s f = forRange lo hi s g :=
  forN_congr _ _ _ (fun i s h1 h2 => h i s h1 (by omega))

/-- Left-to-right accumulation starting from `0`, as the Rust loops compute sums. -/
def sumTo {α : Type} [Zero α] [Add α] (n : Nat) (f : Nat → α) : α :=
  match n with
  | 0 => 0
  | n + 1 => sumTo n f + f n

theorem sumTo_real (n : Nat) (f : Nat → ℝ) : sumTo n f = ∑ i ∈ Finset.range n, f i := by
  induction n with
  | zero => rfl
  | succ n ih => rw [sumTo, ih, Finset.sum_range_succ]

theorem sumTo_congr {α : Type} [Zero α] [Add α] {n : Nat} {f g : Nat → α} (h : ∀ i < n, f i = g i) :
    sumTo n f = sumTo n g := by
  induction n with
  | zero => rfl
  | succ n ih => rw [sumTo, sumTo, ih (fun i hi => h i (by omega)), h n (by omega)]

/-- an accumulation loop computes `sumTo` -/
theorem forRange_sum {α : Type} [Scalar α] {n : Nat} {f : Nat → α → Res α} {t : Nat → α}
    (h : ∀ i acc, i < n → f i acc = .ok (acc + t i)) :
    forRange 0 n (0 : α) f = .ok (sumTo n t) := by
  obtain ⟨s, hs, hp⟩ := forRange_spec (f := f) (fun i (acc : α) => acc = sumTo i t)
    (s := (0 : α)) (Nat.zero_le n) rfl
    (by
      intro i acc _ hi hacc
      exact ⟨acc + t i, h i acc hi, by rw [hacc]; rfl⟩)
  rw [hs, hp]

theorem mapM_range_ok {β : Type} {f : Nat → Res β} {v : Nat → β} (n : Nat) (h : ∀ i < n, f i = .ok (v i)) :
    (List.range n).mapM f = .ok ((List.range n).map v) := by
  have key : ∀ (l : List Nat), (∀ i ∈ l, f i = .ok (v i)) → l.mapM f = .ok (l.map v) := by
    intro l
    induction l with
    | nil => intro _; rfl
    | cons a l ih =>
      intro hl
      rw [List.mapM_cons, hl a (by simp), ih (fun i hi => hl i (by simp [hi]))]
      rfl
  exact key _ (fun i hi => h i (by simpa using hi))

end Ellalgo

import Verif.Spec.Binary64Iter
import Verif.Lib.Same64
import Verif.Lib.Bsearch64

/-! `f64` operations on vectors in range are those of arithmetic rounded to 53 bits. -/

namespace Ellalgo
variable {n : Nat} {A : Nat → Nat → B64} {A' : Nat → Nat → Fl bin53} {v w : Nat → B64} {v' w' : Nat → Fl bin53} {s t : B64} {s' t' : Fl bin53}

namespace Same

theorem beq (h : Same s s') (k : Same t t') : Scalar.beq s t = Scalar.beq s' t' := by
  rw [Bool.eq_iff_iff, finite_beq h.1 k.1, h.2, k.2]
  exact decide_eq_true_iff.symm

theorem abs (h : Same s s') : Same (Scalar.abs s) (Scalar.abs s') := by
  obtain ⟨h1, h2⟩ := h
  cases s with
  | nan => exact h1.elim
  | inf _ => exact h1.elim
  | zero b => exact ⟨trivial, by show (0 : ℝ) = |s'.val|; rw [← h2]; exact abs_zero.symm⟩
  | num a => exact ⟨trivial, by show |a.x| = |s'.val|; rw [← h2]; rfl⟩

end Same

/-- the first `n` entries are the same -/
def SameV (n : Nat) (v : Nat → B64) (v' : Nat → Fl bin53) : Prop := ∀ i < n, Same (v i) (v' i)
def SameM (n : Nat) (A : Nat → Nat → B64) (A' : Nat → Nat → Fl bin53) : Prop := ∀ i < n, SameV n (A i) (A' i)

theorem SameV.dot (h : SameV n v v') (k : SameV n w w') (ok : DotSafe n v' w') : Same (dotV n v w) (dotV n v' w') :=
  Same.sumTo (fun i hi => (h i hi).mul (k i hi) (ok.1 i hi)) ok.2

theorem SameM.mul (h : SameM n A A') (k : SameV n v v') (ok : MulVSafe n A' v') : SameV n (mulV n A v) (mulV n A' v') :=
  fun i hi => (h i hi).dot k (ok i hi)

theorem SameV.axpy (hs : Same s s') (h : SameV n v v') (k : SameV n w w') (ok : AxpySafe n s' v' w') :
    SameV n (fun i => v i + s * w i) (fun i => v' i + s' * w' i) :=
  fun i hi => (h i hi).add (hs.mul (k i hi) (ok i hi).1) (ok i hi).2

theorem SameV.axmy (hs : Same s s') (h : SameV n v v') (k : SameV n w w') (ok : AxmySafe n s' v' w') :
    SameV n (fun i => v i - s * w i) (fun i => v' i - s' * w' i) :=
  fun i hi => (h i hi).sub (hs.mul (k i hi) (ok i hi).1) (ok i hi).2

theorem sqrtOk_dotV (n : Nat) (v' : Nat → Fl bin53) : SqrtOk (dotV n v' v') := by
  show 0 ≤ (dotV n v' v').val
  unfold dotV
  induction n with
  | zero => exact le_rfl
  | succ n ih => exact bin53.nonneg (add_nonneg ih (bin53.nonneg (mul_self_nonneg _)))

theorem SameV.over (h : SameV n v v') (hs : Same s s') (ok : OverSafe n v' s') : SameV n (overV v s) (overV v' s') :=
  fun i hi => (h i hi).mul (Same.one.div hs ok.1) (ok.2 i hi)

theorem SameV.unit (h : SameV n v v') (ok : UnitSafe n v') : SameV n (unitV n v) (unitV n v') :=
  h.over ((h.dot h ok.1).sqrt (sqrtOk_dotV n v')) ok.2

theorem SameV.norm1 (h : SameV n v v') (ok : SumOk n fun i => Scalar.abs (v' i)) : Same (norm1V n v) (norm1V n v') :=
  Same.sumTo (fun i hi => (h i hi).abs) ok

theorem SameV.unit1 (h : SameV n v v') (ok : Unit1Safe n v') : SameV n (unit1V n v) (unit1V n v') :=
  h.over (h.norm1 ok.1) ok.2

theorem SameV.ray (h : SameV n v v') (hA : SameM n A A') (ok : RaySafe n A' v') : Same (rayV n A v) (rayV n A' v') :=
  h.dot (hA.mul h ok.1) ok.2

theorem SameV.close (h : SameV n v v') (k : SameV n w w') (ht : Same t t') (ok : CloseSafe n t' v' w') :
    closeV n t v w = closeV n t' v' w' := by
  obtain ⟨k1, k2, k3⟩ := ok
  have e1 : Scalar.le (norm1V n fun i => v i - w i) t = Scalar.le (norm1V n fun i => v' i - w' i) t' :=
    (SameV.norm1 (v := fun i => v i - w i) (v' := fun i => v' i - w' i) (fun i hi => (h i hi).sub (k i hi) (k1 i hi)) k2).le ht
  unfold closeV
  rw [e1]
  cases e : Scalar.le (norm1V n fun i => v' i - w' i) t'
  · obtain ⟨k4, k5⟩ := k3 e
    rw [Bool.false_or, Bool.false_or]
    exact (SameV.norm1 (v := fun i => v i + w i) (v' := fun i => v' i + w' i) (fun i hi => (h i hi).add (k i hi) (k4 i hi)) k5).le ht
  · rfl

theorem SameV.big (h : SameV n v v') (ok : DotSafe n v' v') : bigV n v = bigV n v' :=
  (h.dot h ok).ge (Same.nat _ (by
    have h1 : ((10 ^ 150 : Nat) : ℝ) = (10 : ℝ) ^ 150 := Nat.cast_pow 10 150
    have h2 : (10 : ℝ) ^ 150 ≤ (2 ^ 4 : ℝ) ^ 150 := pow_le_pow_left₀ (by norm_num) (by norm_num) _
    rw [h1]
    refine h2.trans ?_
    rw [← pow_mul, ← zpow_natCast]
    exact zpow_le_zpow_right₀ (by norm_num) (by norm_num)))

/-- two tests that agree as long as neither has been passed are first passed at the same place -/
theorem firstBelow_same {t t' : Nat → Bool} {m k k' : Nat} (h : ∀ j < m, (∀ i < j, t' i = false) → t j = t' j)
    (h1 : FirstBelow (fun j => t j = true) m k) (h2 : FirstBelow (fun j => t' j = true) m k') : k = k' := by
  have key : ∀ c, c ≤ m → (∀ j < c, ¬ t' j = true) → ∀ j < c, t j = false := by
    intro c hc hf j hj
    rw [h j (by omega) fun i hi => Bool.eq_false_iff.2 (hf i (by omega))]
    exact Bool.eq_false_iff.2 (hf j hj)
  rcases h2 with ⟨a1, a2, a3⟩ | ⟨rfl, a3⟩
  · have e := h k' a1 fun i hi => Bool.eq_false_iff.2 (a3 i hi)
    have b := key k' a1.le a3
    rcases h1 with ⟨c1, c2, c3⟩ | ⟨rfl, c3⟩
    · rcases Nat.lt_trichotomy k k' with hlt | rfl | hlt
      · rw [b k hlt] at c2; cases c2
      · rfl
      · exact (c3 k' hlt (e.trans a2)).elim
    · exact (c3 k' a1 (e.trans a2)).elim
  · have b := key k' le_rfl a3
    rcases h1 with ⟨c1, c2, c3⟩ | ⟨rfl, c3⟩
    · rw [b k c1] at c2; cases c2
    · rfl

/-- where a test is first passed, it has failed before -/
theorem firstBelow_before {t : Nat → Bool} {m k : Nat} (h : FirstBelow (fun j => t j = true) m k) : k ≤ m ∧ ∀ i < k, t i = false := by
  rcases h with ⟨a1, -, a3⟩ | ⟨rfl, a3⟩
  · exact ⟨a1.le, fun i hi => Bool.eq_false_iff.2 (a3 i hi)⟩
  · exact ⟨le_rfl, fun i hi => Bool.eq_false_iff.2 (a3 i hi)⟩

end Ellalgo

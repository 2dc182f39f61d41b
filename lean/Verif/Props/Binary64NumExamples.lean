import Verif.Props.Binary64Num
import Verif.Props.Binary64Range
import Verif.Props.Binary64Examples

/-! C99 (the normal range) and C100: concrete cases. -/

namespace Ellalgo
namespace ExB64
open B64

/-- the identity matrix and the starting vector `(2⁻⁶⁰⁰, 0)`: an eigenvector for the eigenvalue `1` -/
example : ∀ f ∈ [powerIteration, powerIteration2], ∃ l j x',
    f (⟨[1, 0, 0, 1], 2, 2⟩ : Arr B64) ⟨[p2 (-600), 0], 2, 0⟩ Options.default = .ok ((l, j), x') ∧ ¬ l.Finite ∧ x'.IsVecShape 2 ∧
      ∀ v ∈ x'.data, ¬ v.Finite := by
  refine C100_power_tiny_start (n := 2) (by norm_num) ⟨rfl, rfl, rfl⟩ _ ⟨rfl, rfl, rfl⟩ ?_ _
  intro v hv
  simp only [List.mem_cons, List.not_mem_nil, or_false] at hv
  rcases hv with rfl | rfl
  · refine (p2_is (k := -600) (by norm_num) (by norm_num)).small ?_
    rw [abs_of_pos (by positivity)]
    exact zpow_le_zpow_right₀ (by norm_num) (by norm_num)
  · exact is_zero.small (by rw [abs_zero]; positivity)

/-- `2^600 I`, the eigenvalue being `2^600`, from the eigenvector `(1, 0)` -/
example : ∀ f ∈ [powerIteration, powerIteration2], ∃ l j x',
    f (⟨[p2 600, 0, 0, p2 600], 2, 2⟩ : Arr B64) ⟨[1, 0], 2, 0⟩ Options.default = .ok ((l, j), x') ∧ (l = .zero false ∨ l = .nan) := by
  have e0 : Exact 0 := exact_zero
  have e1 : Exact 1 := ex 64 (by norm_num) (by norm_num)
  have hp := p2_is (k := 600) (by norm_num) (by norm_num)
  have h00 : ((0 : B64) * 0).Is 0 := is_zero.mul is_zero (by norm_num) e0
  have hn : ((0 : B64) + 1 * 1 + 0 * 0).Is 1 :=
    (is_zero.add (is_one.mul is_one (z := 1) (by norm_num) e1) (z := 1) (by norm_num) e1).add h00 (by norm_num) e1
  have hi : ((1 : B64) / Scalar.sqrt ((0 : B64) + 1 * 1 + 0 * 0)).Is 1 :=
    is_one.div (hn.sqrt Real.sqrt_one (by norm_num) e1) (by norm_num) (by norm_num) e1
  generalize hs : (1 : B64) / Scalar.sqrt ((0 : B64) + 1 * 1 + 0 * 0) = s at hi
  have hz0 : ((1 : B64) * s).Is 1 := is_one.mul hi (by norm_num) e1
  have hz1 : ((0 : B64) * s).Is 0 := is_zero.mul hi (by norm_num) e0
  have hE := exact_pow (k := 600) (by norm_num) (by norm_num)
  have hy0 : ((0 : B64) + p2 600 * (1 * s) + 0 * (0 * s)).Is ((2 : ℝ) ^ (600 : ℤ)) :=
    (is_zero.add (hp.mul hz0 (mul_one _) hE) (zero_add _) hE).add (is_zero.mul hz1 (z := 0) (by norm_num) e0) (add_zero _) hE
  have hy1 : ((0 : B64) + 0 * (1 * s) + p2 600 * (0 * s)).Is 0 :=
    (is_zero.add (is_zero.mul hz0 (z := 0) (by norm_num) e0) (z := 0) (by norm_num) e0).add
      (hp.mul hz1 (z := 0) (mul_zero _) e0) (by norm_num) e0
  refine C100_power_huge (n := 2) (by norm_num) ⟨rfl, rfl, rfl⟩ ?_ ⟨[1, 0], 2, 0⟩ ⟨[1 * s, 0 * s], 2, 0⟩
    ⟨[(0 : B64) + p2 600 * (1 * s) + 0 * (0 * s), (0 : B64) + 0 * (1 * s) + p2 600 * (0 * s)], 2, 0⟩ ⟨rfl, rfl, rfl⟩ ?_ rfl ?_
    ⟨_, List.mem_cons_self, ?_⟩ Options.default (by show 0 < 2000; norm_num)
  · intro v hv
    simp only [List.mem_cons, List.not_mem_nil, or_false] at hv
    rcases hv with rfl | rfl | rfl | rfl
    · exact hp.1
    · trivial
    · trivial
    · exact hp.1
  · rw [← hs]
    rfl
  · intro v hv
    simp only [List.mem_cons, List.not_mem_nil, or_false] at hv
    rcases hv with rfl | rfl
    · exact hy0.1
    · exact hy1.1
  · rw [hy0.2, abs_of_pos (by positivity)]
    exact zpow_le_zpow_right₀ (by norm_num) (by norm_num)

/-- the interval from `-2^1023` to `2^1023`: an oracle that accepts the numbers above `0` gives `(true, 2000)`, one that accepts
nothing gives `(false, 1)` -/
example :
    bsearch (⟨fun w x => .ok (Scalar.lt 0 x, w)⟩ : OracleBS Unit B64) () (B64.neg (p2 1023), p2 1023) Options.default =
      .ok ((true, 2000), (), (B64.neg (p2 1023), p2 1023)) ∧
    bsearch (⟨fun w _ => .ok (false, w)⟩ : OracleBS Unit B64) () (B64.neg (p2 1023), p2 1023) Options.default =
      .ok ((false, 1), (), (B64.neg (p2 1023), p2 1023)) := by
  have hp := p2_is (k := 1023) (by norm_num) (by norm_num)
  have hov : p2 1023 - B64.neg (p2 1023) = .inf false := by
    have : p2 1023 - B64.neg (p2 1023) = p2 1023 + B64.neg (B64.neg (p2 1023)) := rfl
    rw [this, finite_add hp.1 hp.neg.neg.1, hp.2, hp.neg.neg.2]
    refine overflow (le_of_eq ?_)
    rw [show (1024 : ℤ) = 1023 + 1 by norm_num, zpow_add₀ (by norm_num)]
    ring
  have hle : Scalar.le (B64.neg (p2 1023)) (p2 1023) = true := by
    show (Scalar.lt (B64.neg (p2 1023)) (p2 1023) || _) = true
    rw [(hp.neg.lt hp).2 (lt_trans (neg_neg_of_pos (by positivity)) (by positivity))]
    rfl
  have hm : 2 ≤ (Options.default (α := B64)).maxIters := by show 2 ≤ 2000; norm_num
  exact ⟨(C100_bsearch_overflow _ () _ _ hp.neg.1 hp.1 hle hov Options.default (by omega) tol_is.1).2 fun _ => rfl,
    (C100_bsearch_overflow _ () _ _ hp.neg.1 hp.1 hle hov Options.default (by omega) tol_is.1).1 () rfl hm⟩

/-- `1 + 1` in the normal range -/
example : ((1 : B64) + 1).Finite ∧ ((1 : B64) + 1).val = rnd53 (1 + 1) := by
  have := (C99_normal_range 1 1 is_one.1 is_one.1).1
  rw [is_one.2] at this
  refine this ?_
  rw [← rnd64_normal (by
    rw [abs_of_pos (by norm_num)]
    exact (zpow_le_one_of_nonpos₀ (by norm_num) (by norm_num)).trans (by norm_num))]
  refine pow_lt_max (k := 1) (by norm_num) (rnd64_abs_le (by norm_num) ?_)
  norm_num

end ExB64
end Ellalgo

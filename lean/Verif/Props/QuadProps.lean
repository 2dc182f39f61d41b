import Verif.Model.TestOracles
import Verif.Props.GoalLoop
import Verif.Lib.Pair
import Verif.Props.EllReal

/-! C73: the quadratic oracles of the tests and the benchmark. -/

namespace Ellalgo
open Matrix

/-! ### each of them is a quadratic oracle -/

/-- the common tail -/
theorem quadAnswer_spec {Ω : Type} {n : Nat} {a t : Fin n → ℝ} {o : Ω} {g x : Arr ℝ} {f γ : ℝ} {I : Ω → Prop} (ho : I o)
    (hg : g.IsVecShape n) (hgv : ∀ i, g.toVec n i = 2 * a i * (x.toVec n i - t i))
    (hf : f = quadVal a t (x.toVec n)) :
    ∃ g' shrunk γ' w', quadAnswer o g f γ = .ok (((g', ⟨quadVal a t (x.toVec n)⟩), shrunk), γ', w') ∧ I w' ∧ g'.IsVecShape n ∧
      (∀ i, g'.toVec n i = 2 * a i * (x.toVec n i - t i)) ∧
      (shrunk = true ↔ quadVal a t (x.toVec n) < γ) ∧ γ' = min γ (quadVal a t (x.toVec n)) := by
  subst hf
  unfold quadAnswer
  simp only [Scalar.real_lt, decide_eq_true_eq]
  split
  · rename_i h
    exact ⟨_, _, _, _, rfl, ho, hg, hgv, by simp [h], by rw [min_eq_right h.le]⟩
  · rename_i h
    exact ⟨_, _, _, _, rfl, ho, hg, hgv, by simp [h], by rw [min_eq_left (not_lt.1 h)]⟩

/-- **C73** `QuadraticOracle` minimises `x² + y²`. -/
theorem C73_quadratic_oracle : Quadratic 2 (quadOracle (α := ℝ)) (fun _ => True) 1 0 := by
  intro w x γ _ hx
  obtain ⟨hx0, hx1⟩ := idx_pair hx
  simp only [quadOracle, quadAssess, hx0, hx1, Res.ok_bind]
  refine quadAnswer_spec (I := fun _ => True) trivial (pair_shape _ _) ?_ ?_
  · intro i
    rw [pair_toVec]
    fin_cases i <;> simp [nat]
  · simp [quadVal, Fin.sum_univ_two, sq]

/-- **C73** `KnownOptimalOracle` and `HighDimOracle` minimise `‖x - target‖²`, in every dimension. -/
theorem C73_target_oracle {n : Nat} (target : Arr ℝ) (ht : target.IsVecShape n) :
    Quadratic n (targetOracle (α := ℝ)) (fun w => w = target) 1 (target.toVec n) := by
  intro w x γ hw hx
  subst hw
  obtain ⟨z, h1, h2⟩ := RV.sub (x := x) (y := w) ⟨hx, rfl⟩ ⟨ht, rfl⟩
  have h3 := RV.smul h2 (2 : ℝ)
  have h4 := RV.dot h2 h2
  simp only [targetOracle, targetAssess, h1, h4, Res.ok_bind, nat]
  refine quadAnswer_spec (I := fun v => v = w) rfl h3.1 ?_ ?_
  · intro i
    have := congrFun h3.2 i
    simpa using this
  · simp [quadVal, dotProduct, sq]

/-- **C73** `BenchOracle` minimises `‖x‖²`, in every dimension. -/
theorem C73_bench_oracle {n : Nat} : Quadratic n (benchOracle (α := ℝ)) (fun _ => True) 1 0 := by
  intro w x γ _ hx
  have h2 : RV x (x.toVec n) := ⟨hx, rfl⟩
  have h3 := RV.smul h2 (2 : ℝ)
  have h4 := RV.dot h2 h2
  simp only [benchOracle, benchAssess, h4, Res.ok_bind, nat]
  refine quadAnswer_spec (I := fun _ => True) trivial h3.1 ?_ ?_
  · intro i
    have := congrFun h3.2 i
    simpa using this
  · simp [quadVal, dotProduct, sq]

/-- **C73** `ScalingOracle` minimises `‖x‖²`, in every dimension `ndim`. -/
theorem C73_scaling_oracle {n : Nat} : Quadratic n (scalingOracle (α := ℝ)) (fun w => w = n) 1 0 := by
  intro w x γ hw hx
  subst hw
  obtain ⟨⟨g, f⟩, h1, h2, h3⟩ := forRange_spec (σ := Arr ℝ × ℝ)
    (f := fun i (p : Arr ℝ × ℝ) => (x.idx i).bind fun v => (p.1.setIdx i (nat 2 * v)).bind fun g => .ok (g, p.2 + v * v))
    (fun i p => IsVec p.1 w (fun k => if k < i then 2 * x.vec k else 0) ∧ p.2 = ∑ k ∈ Finset.range i, x.vec k * x.vec k)
    (lo := 0) (hi := w) (s := (Arr.new w, 0)) (Nat.zero_le _)
    ⟨(isVec_new w).congr (by intros; simp), by simp⟩
    (by
      rintro i ⟨g, f⟩ - hi ⟨hg, hf⟩
      obtain ⟨g', h1, h2⟩ := hg.setIdx hi (2 * x.vec i)
      refine ⟨(g', f + x.vec i * x.vec i), ?_, h2.congr ?_, ?_⟩
      · have : (nat 2 : ℝ) = 2 := by simp [nat]
        rw [hx.isVec.idx hi, this]
        show ((g, f).1.setIdx i (2 * x.vec i)).bind _ = _
        rw [h1]; rfl
      · intro p _
        simp only [upd1]
        by_cases hp : p = i
        · rw [if_pos hp, if_pos (by omega), hp]
        · rw [if_neg hp]
          by_cases h' : p < i
          · rw [if_pos h', if_pos (by omega)]
          · rw [if_neg h', if_neg (by omega)]
      · rw [Finset.sum_range_succ, ← hf])
  have e : scalingOracle.assess w x γ = quadAnswer w g f γ := by
    exact congrArg (fun r => Res.bind r fun p => quadAnswer w p.1 p.2 γ) h1
  rw [e]
  refine quadAnswer_spec (I := fun k => k = w) rfl h2.shape ?_ ?_
  · intro i
    rw [h2.toVec]
    simp [Arr.toVec]
  · simp only at h3
    rw [h3, ← Fin.sum_univ_eq_sum_range (fun k => x.vec k * x.vec k)]
    simp [quadVal, sq, Arr.toVec]

/-- **C73** `IllConditionedOracle` with condition number `κ` minimises `(1 + 1/κ) x² + κ y²`. -/
theorem C73_ill_conditioned_oracle (κ : ℝ) :
    Quadratic 2 (illOracle (α := ℝ)) (fun w => w = κ) ![1 + 1 / κ, κ] 0 := by
  intro w x γ hw hx
  subst hw
  obtain ⟨hx0, hx1⟩ := idx_pair hx
  simp only [illOracle, illAssess, hx0, hx1, Res.ok_bind]
  refine quadAnswer_spec (I := fun v => v = w) rfl (pair_shape _ _) ?_ ?_
  · intro i
    rw [pair_toVec]
    fin_cases i <;> simp [nat]
  · simp [quadVal, Fin.sum_univ_two, sq]

/-- **C73** `ExtremeScaleOracle` with scale `s` minimises `s x² + y²`. -/
theorem C73_extreme_scale_oracle (s : ℝ) :
    Quadratic 2 (scaleOracle (α := ℝ)) (fun w => w = s) ![s, 1] 0 := by
  intro w x γ hw hx
  subst hw
  obtain ⟨hx0, hx1⟩ := idx_pair hx
  simp only [scaleOracle, scaleAssess, hx0, hx1, Res.ok_bind]
  refine quadAnswer_spec (I := fun v => v = w) rfl (pair_shape _ _) ?_ ?_
  · intro i
    rw [pair_toVec]
    fin_cases i <;> simp [nat]
  · simp [quadVal, Fin.sum_univ_two, sq]

/-! ### solving -/

variable {Ω : Type} {n : Nat} {orc : OracleOptim Ω (Arr ℝ) (SingleCut ℝ) ℝ} {I : Ω → Prop} {a t : Fin n → ℝ}

/-- Cauchy-Schwarz for the weighted inner product -/
theorem weighted_cs (ha : ∀ i, 0 ≤ a i) (u d : Fin n → ℝ) :
    (∑ i, a i * (d i * u i)) ^ 2 ≤ (∑ i, a i * d i ^ 2) * ∑ i, a i * u i ^ 2 := by
  have h := Finset.sum_mul_sq_le_sq_mul_sq Finset.univ (fun i => √(a i) * d i) (fun i => √(a i) * u i)
  have e1 : ∀ i, √(a i) * d i * (√(a i) * u i) = a i * (d i * u i) := fun i => by
    have := Real.mul_self_sqrt (ha i)
    linear_combination (d i * u i) * this
  have e2 : ∀ (v : Fin n → ℝ) (i), (√(a i) * v i) ^ 2 = a i * v i ^ 2 := fun v i => by
    rw [mul_pow, Real.sq_sqrt (ha i)]
  simpa only [e1, e2] using h

/-- the cut `2a(x-t)·(z-x) + f(x) ≤ 0` keeps the points of value at most a quarter of `f(x)` -/
theorem quad_keep (ha : ∀ i, 0 ≤ a i) {x z g : Fin n → ℝ} (hg : ∀ i, g i = 2 * a i * (x i - t i))
    (hz : 4 * quadVal a t z ≤ quadVal a t x) : g ⬝ᵥ (z - x) + quadVal a t x ≤ 0 := by
  have hcs := weighted_cs ha (fun i => z i - t i) (fun i => x i - t i)
  set S := ∑ i, a i * ((x i - t i) * (z i - t i)) with hS
  have hf0 : 0 ≤ quadVal a t x := Finset.sum_nonneg fun i _ => mul_nonneg (ha i) (sq_nonneg _)
  have hS2 : S ≤ quadVal a t x / 2 := by
    have h1 : S ^ 2 ≤ (quadVal a t x / 2) ^ 2 := by
      refine hcs.trans ?_
      have : (∑ i, a i * (z i - t i) ^ 2) ≤ quadVal a t x / 4 := by
        have : quadVal a t z ≤ quadVal a t x / 4 := by linarith
        exact this
      calc (∑ i, a i * (x i - t i) ^ 2) * (∑ i, a i * (z i - t i) ^ 2)
          ≤ quadVal a t x * (quadVal a t x / 4) := mul_le_mul_of_nonneg_left this hf0
        _ = _ := by ring
    exact abs_le_of_sq_le_sq' h1 (by positivity) |>.2
  have e : g ⬝ᵥ (z - x) = 2 * S - 2 * quadVal a t x := by
    rw [hS, quadVal, dotProduct, Finset.mul_sum, Finset.mul_sum, ← Finset.sum_sub_distrib]
    refine Finset.sum_congr rfl fun i _ => ?_
    rw [hg i, Pi.sub_apply]; ring
  rw [e]; linarith

/-- the gradient is long where the value is large -/
theorem quad_grad {m : ℝ} (hm : 0 ≤ m) (ha : ∀ i, m ≤ a i) {x g : Fin n → ℝ} (hg : ∀ i, g i = 2 * a i * (x i - t i)) :
    4 * m * quadVal a t x ≤ normSq g := by
  rw [quadVal, normSq, dotProduct, Finset.mul_sum]
  refine Finset.sum_le_sum fun i _ => ?_
  rw [hg i]
  have h1 := mul_le_mul_of_nonneg_right (ha i) (mul_nonneg (hm.trans (ha i)) (sq_nonneg (x i - t i)))
  nlinarith

/-- a quadratic oracle protects the points of value at most `ε/4` until the value `ε` is reached -/
theorem quad_keepsUntil (h : Quadratic n orc I a t) {m ε : ℝ} (hm : 0 < m) (ha : ∀ i, m ≤ a i) (hε : 0 < ε) :
    KeepsUntil n orc (fun w _ => I w) {z | 4 * quadVal a t z ≤ ε} (2 * √(m * ε)) (fun γ => γ ≤ ε) := by
  have ha0 : ∀ i, 0 ≤ a i := fun i => hm.le.trans (ha i)
  intro w x γ hw hx
  obtain ⟨g, s, γ', w', h1, h2, h3, h4, h5, h6⟩ := h w x γ hw hx
  refine ⟨g, _, s, γ', w', h1, h2, fun hγ => by rw [h6]; exact (min_le_left _ _).trans hγ, h3, ?_⟩
  by_cases hgoal : γ' ≤ ε
  · exact Or.inl hgoal
  right
  have hfx : ε < quadVal a t (x.toVec n) := by
    rw [h6] at hgoal
    exact (not_le.1 hgoal).trans_le (min_le_right _ _)
  have hG : (2 * √(m * ε)) ^ 2 ≤ normSq (g.toVec n) := by
    have := quad_grad hm.le ha h4
    rw [mul_pow, Real.sq_sqrt (by positivity)]
    have h7 := mul_lt_mul_of_pos_left hfx (show (0 : ℝ) < 4 * m by positivity)
    linarith
  have hkeep : ∀ y ∈ {z | 4 * quadVal a t z ≤ ε}, g.toVec n ⬝ᵥ (y - x.toVec n) + quadVal a t (x.toVec n) ≤ 0 :=
    fun y hy => quad_keep ha0 h4 ((show 4 * quadVal a t y ≤ ε from hy).trans hfx.le)
  refine ⟨?_, hG, fun _ y hy => ⟨?_, by simp⟩, fun _ => ⟨(hε.trans hfx).le, fun y hy => ⟨by simpa using hkeep y hy, by simp⟩⟩⟩
  · intro h0
    rw [h0] at hG
    simp only [normSq, dotProduct_zero] at hG
    have : 0 < (2 * √(m * ε)) ^ 2 := by positivity
    linarith
  · have := hkeep y hy
    have h8 : g.toVec n ⬝ᵥ (y - x.toVec n) ≤ 0 := by linarith [hε.trans hfx]
    simpa using h8

/-- the reported point has the reported value -/
theorem quad_attained (hn : 0 < n) (h : Quadratic n orc I a t) {γ0 tol : ℝ} (m : Nat) :
    ∀ (n0 : Nat) (xb : Option (Arr ℝ)) (w : Ω) (e : Ell ℝ) (γ : ℝ), I w → e.Shaped n → γ ≤ γ0 →
      ((xb = none ∧ γ = γ0) ∨ ∃ x, xb = some x ∧ x.IsVecShape n ∧ quadVal a t (x.toVec n) = γ) →
      ∃ xb' k γ' w' e', optimLoop orc Ell.space tol m n0 xb w e γ = .ok ((xb', k), γ', w', e') ∧ γ' ≤ γ0 ∧
        ((xb' = none ∧ γ' = γ0) ∨ ∃ x, xb' = some x ∧ x.IsVecShape n ∧ quadVal a t (x.toVec n) = γ') := by
  induction m with
  | zero => intro n0 xb w e γ _ _ hle hA; exact ⟨_, _, _, _, _, rfl, hle, hA⟩
  | succ m ih =>
    intro n0 xb w e γ hw hsh hle hA
    obtain ⟨g, s, γ1, w1, h1, h2, h3, h4, h5, h6⟩ := h w e.xc γ hw hsh.2
    have hq' : orc.assess w (Ell.space (T := SingleCut ℝ).xc e) γ =
        .ok (((g, ⟨quadVal a t (e.xc.toVec n)⟩), s), γ1, w1) := h1
    set b := quadVal a t (e.xc.toVec n) with hbd
    obtain ⟨st, e1, hu, hsh1⟩ : ∃ st e1, (if s then Ell.space.updateCentral e (g, (⟨b⟩ : SingleCut ℝ))
        else Ell.space.updateBias e (g, (⟨b⟩ : SingleCut ℝ))) = .ok (st, e1) ∧ e1.Shaped n := by
      cases s
      · obtain ⟨st, e1, h1, h2, _⟩ := Ell.update_shape hn .bias e (g, (⟨b⟩ : SingleCut ℝ)) hsh h3
        exact ⟨st, e1, h1, h2⟩
      · obtain ⟨st, e1, h1, h2, _⟩ := Ell.update_shape hn .central e (g, (⟨b⟩ : SingleCut ℝ)) hsh h3
        exact ⟨st, e1, h1, h2⟩
    have hA' : ((if s = true then some (Ell.space (T := SingleCut ℝ).xc e) else xb) = none ∧ γ1 = γ0) ∨
        ∃ x, (if s = true then some (Ell.space (T := SingleCut ℝ).xc e) else xb) = some x ∧ x.IsVecShape n ∧
          quadVal a t (x.toVec n) = γ1 := by
      cases hs : s with
      | true => exact Or.inr ⟨e.xc, rfl, hsh.2, by rw [h6, min_eq_right (h5.1 hs).le]⟩
      | false =>
        have : γ1 = γ := by
          rw [h6, min_eq_left]
          by_contra hc
          rw [h5.2 (not_le.1 hc)] at hs
          simp at hs
        simp only [Bool.false_eq_true, if_false]
        rw [this]; exact hA
    have hle' : γ1 ≤ γ0 := by rw [h6]; exact (min_le_left _ _).trans hle
    unfold optimLoop
    simp only [hq', Res.ok_bind, hu]
    split
    · exact ⟨_, _, _, _, _, rfl, hle', hA'⟩
    · exact ih _ _ _ _ _ h2 hsh1 hle' hA'

/-- **C73** Solving a quadratic.  Let the weights lie between `m > 0` and `M`, and let the initial ellipsoid contain the ball
of radius `r` around the minimiser, where `4 M r² ≤ ε`.  With a tolerance of at most `4 m r² ε` and more than
`(n+1) ln(det(κM)/r^(2n))` iterations, `cutting_plane_optim` ends with a value of at most `ε`; if the initial `γ` was larger
than that, it returns a point with this value, at squared distance at most `ε/m` from the minimiser. -/
theorem C73_quadratic_solved (h : Quadratic n orc I a t) {m M ε r : ℝ} (hm : 0 < m) (ha : ∀ i, m ≤ a i ∧ a i ≤ M)
    (hr : 0 < r) (hε : 4 * M * r ^ 2 ≤ ε) {w : Ω} (hw : I w) {e : Ell ℝ} (he : e.Valid n) (hE : ball t r ⊆ e.region n)
    (γ : ℝ) {opts : Options ℝ} (htol : opts.tolerance ≤ 4 * m * r ^ 2 * ε)
    (hit : ((n : ℝ) + 1) * Real.log ((e.kappa • e.M n).det / (r ^ 2) ^ n) < opts.maxIters) :
    ∃ xb k γ' w' e', cuttingPlaneOptim orc Ell.space w e γ opts = .ok ((xb, k), γ', w', e') ∧ γ' ≤ ε ∧
      (ε < γ → ∃ x, xb = some x ∧ x.IsVecShape n ∧ quadVal a t (x.toVec n) = γ' ∧
        normSq (x.toVec n - t) ≤ ε / m) := by
  have hi : 0 < n := he.pos
  have hM : 0 < M := hm.trans_le ((ha ⟨0, hi⟩).1.trans (ha ⟨0, hi⟩).2)
  have hε0 : 0 < ε := lt_of_lt_of_le (by positivity) hε
  have hk := quad_keepsUntil h hm (fun i => (ha i).1) hε0
  have hK : ball t r ⊆ {z | 4 * quadVal a t z ≤ ε} := by
    intro z hz
    have hz' : normSq (z - t) ≤ r ^ 2 := hz
    have : quadVal a t z ≤ M * normSq (z - t) := by
      rw [quadVal, normSq, dotProduct, Finset.mul_sum]
      refine Finset.sum_le_sum fun i _ => ?_
      have := mul_le_mul_of_nonneg_right (ha i).2 (sq_nonneg (z i - t i))
      simp only [Pi.sub_apply]
      nlinarith
    show 4 * quadVal a t z ≤ ε
    nlinarith
  obtain ⟨xb, k, γ', w', e', h1, -, h3⟩ := C73_reaches_goal (γ := γ) hk hr hK hw he hE (opts := opts)
    (by rw [mul_pow, Real.sq_sqrt (by positivity)]; linarith) hit
  refine ⟨xb, k, γ', w', e', h1, h3, fun hγ => ?_⟩
  obtain ⟨xb2, k2, γ2, w2, e2, j1, -, j3⟩ := quad_attained (γ0 := γ) (tol := opts.tolerance) hi h opts.maxIters 0 none w e γ hw
    he.shaped le_rfl (Or.inl ⟨rfl, rfl⟩)
  have j1' : cuttingPlaneOptim orc Ell.space w e γ opts = .ok ((xb2, k2), γ2, w2, e2) := j1
  rw [h1] at j1'
  simp only [Res.ok.injEq, Prod.mk.injEq] at j1'
  obtain ⟨⟨rfl, rfl⟩, rfl, rfl, rfl⟩ := j1'
  rcases j3 with ⟨-, hc⟩ | ⟨x, x1, x2, x3⟩
  · linarith
  · refine ⟨x, x1, x2, x3, ?_⟩
    rw [le_div_iff₀ hm]
    have : normSq (x.toVec n - t) * m ≤ quadVal a t (x.toVec n) := by
      rw [quadVal, normSq, dotProduct, Finset.sum_mul]
      refine Finset.sum_le_sum fun i _ => ?_
      have := mul_le_mul_of_nonneg_right (ha i).1 (sq_nonneg (x.toVec n i - t i))
      simp only [Pi.sub_apply]
      nlinarith
    linarith

/-- **C73** No quadratic run panics; the value never increases, and is that of the returned point (if any), for every
ellipsoid, tolerance and iteration limit. -/
theorem C73_quadratic_safe (h : Quadratic n orc I a t) (hn : 0 < n) {w : Ω} (hw : I w) {e : Ell ℝ} (he : e.Shaped n) (γ : ℝ)
    (opts : Options ℝ) :
    ∃ xb k γ' w' e', cuttingPlaneOptim orc Ell.space w e γ opts = .ok ((xb, k), γ', w', e') ∧ γ' ≤ γ ∧
      ((xb = none ∧ γ' = γ) ∨ ∃ x, xb = some x ∧ x.IsVecShape n ∧ quadVal a t (x.toVec n) = γ') :=
  quad_attained hn h opts.maxIters 0 none w e γ hw he le_rfl (Or.inl ⟨rfl, rfl⟩)

/-- **C73** Wrong offset: the cut of a non-improving answer has `beta = f(x)` instead of `f(x) - γ`, and may cut off points
better than `γ`.  (At `x = (2, 0)` with `γ = 3.9` it removes `(1.5, 0)`, whose value is `2.25`.) -/
theorem C73_cuts_off_better_points : ∃ g b,
    quadAssess () (Arr.ofList [(2 : ℝ), 0]) (39 / 10) = .ok (((g, ⟨b⟩), false), 39 / 10, ()) ∧
    quadVal 1 0 ![(3 / 2 : ℝ), 0] < 39 / 10 ∧ ¬ g.toVec 2 ⬝ᵥ (![3 / 2, 0] - ![2, 0]) + b ≤ 0 := by
  refine ⟨Arr.ofList [nat 2 * 2, nat 2 * 0], 2 * 2 + 0 * 0, ?_, ?_, ?_⟩
  · have hx : (Arr.ofList [(2 : ℝ), 0]).IsVecShape 2 := pair_shape _ _
    obtain ⟨h0, h1⟩ := idx_pair hx
    rw [pair_toVec] at h0 h1
    simp only [quadAssess, h0, h1, Res.ok_bind, quadAnswer, Scalar.real_lt, decide_eq_true_eq, cons_val_zero, cons_val_one]
    rw [if_neg (by norm_num)]
  · simp [quadVal, Fin.sum_univ_two]; norm_num
  · rw [pair_toVec, pair_dot]; simp [nat]; norm_num

/-- **C73** The benchmark (benches/ellipsoid.rs:28-41) starts at the minimiser with `γ = -∞`.  Whatever the dimension,
radius, (positive) tolerance, iteration limit and `γ ≤ 0`, it stops in its first iteration without a point. -/
theorem C73_bench_stops_at_once (hn : 2 ≤ n) {val γ : ℝ} (hval : 0 < val) (hγ : γ ≤ 0) {opts : Options ℝ}
    (htol : 0 < opts.tolerance) (hmax : 0 < opts.maxIters) :
    ∃ e e', Ell.newWithScalar val (Arr.new n) = .ok e ∧
      cuttingPlaneOptim benchOracle Ell.space () e γ opts = .ok ((none, 0), γ, (), e') := by
  have hz := rv_new (n := n)
  obtain ⟨e, h1, h2, -⟩ := C13_valid_with_scalar (n := n) val (Arr.new n) hn hz.1 hval
  have hxc : e.xc = Arr.new n := by
    simp only [Ell.newWithScalar] at h1
    obtain ⟨y, -, h1⟩ := Res.bind_eq_ok.1 h1
    simp only [Res.ok.injEq] at h1
    rw [← h1]; rfl
  obtain ⟨g, s, γ1, w1, q1, -, q3, q4, q5, q6⟩ := C73_bench_oracle (n := n) () e.xc γ trivial h2.shaped.2
  have hx0 : e.xc.toVec n = 0 := by rw [hxc]; exact hz.2
  have hv : quadVal 1 0 (e.xc.toVec n) = 0 := by rw [hx0]; simp [quadVal]
  have hg0 : g.toVec n = 0 := by
    funext i; rw [q4 i, hx0]; simp
  have hs : s = false := by
    cases s
    · rfl
    · have := q5.1 rfl
      rw [hv] at this; linarith
  have hγ1 : γ1 = γ := by rw [q6, hv, min_eq_left hγ]
  subst hs hγ1
  obtain ⟨st, e1, u1, -, -⟩ := Ell.update_shape h2.pos .bias e (g, (⟨quadVal 1 0 (e.xc.toVec n)⟩ : SingleCut ℝ)) h2.shaped q3
  have htsq : e1.tsq = 0 := by
    obtain ⟨ρ, σ, δ, -, hc⟩ := Ell.update_real h2.shaped h2.symm h2.pos .bias _ q3 u1
    rcases hc with ⟨-, hc⟩ | ⟨-, hc⟩
    · rw [hc]
      show e.tsqOf n (g.toVec n) = 0
      rw [hg0]; simp [Ell.tsqOf]
    · rw [hc.tsq]
      show e.tsqOf n (g.toVec n) = 0
      rw [hg0]; simp [Ell.tsqOf]
  refine ⟨e, e1, h1, ?_⟩
  obtain ⟨m, hm⟩ := Nat.exists_eq_succ_of_ne_zero hmax.ne'
  unfold cuttingPlaneOptim
  rw [hm]
  unfold optimLoop
  have q1' : (benchOracle (α := ℝ)).assess () (Ell.space (T := SingleCut ℝ).xc e) γ1 = _ := q1
  have u1' : Ell.space.updateBias e (g, (⟨quadVal 1 0 (e.xc.toVec n)⟩ : SingleCut ℝ)) = .ok (st, e1) := u1
  simp only [q1', Res.ok_bind, Bool.false_eq_true, if_false, u1']
  rw [if_pos]
  have : Scalar.lt (Ell.space (T := SingleCut ℝ).tsq e1) opts.tolerance = true := by
    show Scalar.lt e1.tsq opts.tolerance = true
    rw [Scalar.real_lt, htsq]; simpa using htol
  rw [this]; simp

end Ellalgo

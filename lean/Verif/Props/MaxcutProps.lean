import Verif.Model.Maxcut
import Verif.Spec.Maxcut
import Verif.Lib.LdltLemmas
import Verif.Props.ProfitProps
import Verif.Props.Solve

/-! C51: the maxcut oracle. -/

namespace Ellalgo
open Matrix Finset

variable {n : Nat} {W : Matrix (Fin n) (Fin n) ℝ}

/-- the oracle holds the weight matrix `W` -/
structure MaxcutOracle.For (o : MaxcutOracle ℝ) (W : Matrix (Fin n) (Fin n) ℝ) : Prop where
  weights : RM o.weights W
  size : o.n = n

/-- `MaxcutOracle::new` accepts every nonempty square matrix -/
theorem C51_maxcut_new {a : Arr ℝ} (hn : 0 < n) (ha : RM a W) : ∃ o, MaxcutOracle.new a = .ok o ∧ o.For W := by
  have h1 : a.rows = n := ha.1.1
  have h2 : a.cols = n := ha.1.2.1
  have h3 : a.is2d = true := ha.isMat.is2d hn
  refine ⟨⟨a, n⟩, ?_, ⟨ha, rfl⟩⟩
  rw [MaxcutOracle.new, h1, h2, h3]
  simp

/-- **C51** (`new`).  `MaxcutOracle::new` panics exactly if the argument is not a nonempty square matrix; otherwise it stores it. -/
theorem C51_new_rejects {α : Type} (a : Arr α) :
    (MaxcutOracle.new a = .panic ↔ ¬ (a.rows = a.cols ∧ 0 < a.cols)) ∧
    (a.rows = a.cols → 0 < a.cols → MaxcutOracle.new a = .ok ⟨a, a.rows⟩) := by
  unfold MaxcutOracle.new Arr.is2d
  by_cases h1 : a.rows = a.cols
  · by_cases h2 : 0 < a.cols <;> simp [h1, h2]
  · have : (a.rows == a.cols) = false := beq_eq_false_iff_ne.2 h1
    simp [h1, this]

/-- sign vector of a partition -/
noncomputable def signOf (x : Fin n → ℝ) (i : Fin n) : ℝ := if 0 ≤ x i then 1 else -1

theorem signOf_ne (x : Fin n → ℝ) (i j : Fin n) : signOf x i ≠ signOf x j ↔ ¬(onLeft x i ↔ onLeft x j) := by
  unfold signOf onLeft
  by_cases h1 : 0 ≤ x i <;> by_cases h2 : 0 ≤ x j <;> simp [h1, h2] <;> norm_num

theorem rv_signs {xc : Arr ℝ} (hx : xc.IsVecShape n) : RV (maxcutSigns xc) (signOf (xc.toVec n)) := by
  have := rv_map (x := xc) (v := xc.toVec n) ⟨hx, rfl⟩ fun v => if Scalar.ge v 0 then (1 : ℝ) else -1
  have h : (fun i => if Scalar.ge (xc.toVec n i) 0 then (1 : ℝ) else -1) = signOf (xc.toVec n) := by
    funext i; simp [signOf, Scalar.real_ge]
  rw [h] at this
  exact this

open Classical in
theorem maxcut_value {o : MaxcutOracle ℝ} (ho : o.For W) {x : Arr ℝ} {z : Fin n → ℝ} (hx : RV x (signOf z)) :
    o.cutValue x = .ok (cutWeight W z) := by
  have hc : o.weights.cols = n := ho.weights.1.2.1
  have inner : ∀ (i : Nat) (s : ℝ), i < n →
      (forRange (i + 1) o.n s fun j s => do
        let xi ← x.idx i
        let xj ← x.idx j
        if !Scalar.beq xi xj then do
          let w ← o.weights.idx (i * o.weights.cols + j)
          .ok (s + w)
        else .ok s) = .ok (s + ∑ j ∈ Ico (i + 1) n, if ext0 (signOf z) i ≠ ext0 (signOf z) j then ext00 W i j else 0) := by
    intro i s hi
    rw [ho.size]
    refine forRange_sumIco (by omega) s fun j acc _ hj => ?_
    rw [hx.isVec.idx hi, hx.isVec.idx hj, hc, ho.weights.isMat.idx hi hj]
    simp only [Res.ok_bind, Scalar.real_beq]
    split
    · rename_i h
      rw [if_pos (by simpa using h)]
    · rename_i h
      rw [if_neg (by simpa using h), add_zero]
  have outer := forRange_sumIco (lo := 0) (hi := n) (Nat.zero_le n) (0 : ℝ) (fun i acc _ hi => inner i acc hi)
  rw [MaxcutOracle.cutValue]
  conv_lhs => rw [show (forRange 0 o.n) = forRange (σ := ℝ) 0 n by rw [ho.size]]
  rw [outer, zero_add, cutWeight]
  congr 1
  rw [Nat.Ico_zero_eq_range, Finset.sum_range fun i => ∑ j ∈ Ico (i + 1) n,
    if ext0 (signOf z) i ≠ ext0 (signOf z) j then ext00 W i j else 0]
  refine Finset.sum_congr rfl fun i _ => ?_
  have h2 : ∀ t : Nat → ℝ, ∑ j ∈ Ico ((i : Nat) + 1) n, t j = ∑ j ∈ range n, if (i : Nat) < j then t j else 0 := by
    intro t
    rw [← Finset.sum_filter]
    refine Finset.sum_congr ?_ fun _ _ => rfl
    ext j; simp only [mem_Ico, mem_filter, mem_range]; omega
  rw [h2, Finset.sum_range]
  refine Finset.sum_congr rfl fun j _ => ?_
  simp only [Fin.val_fin_lt, ext0_fin, signOf_ne, ite_and, ext00, i.2, j.2, and_self, dite_true, Fin.eta]

open Classical in
theorem maxcut_grad {o : MaxcutOracle ℝ} (ho : o.For W) {x : Arr ℝ} {z : Fin n → ℝ} (hx : RV x (signOf z)) :
    ∃ g, o.grad x = .ok g ∧ RV g (fun i => 2 * crossingAt W z i) := by
  have hc : o.weights.cols = n := ho.weights.1.2.1
  set t : Nat → Nat → ℝ := fun i j => if ext0 (signOf z) i ≠ ext0 (signOf z) j then ext00 W i j else 0 with ht
  have inner : ∀ (i : Nat) (g : Arr ℝ) (v : Nat → ℝ), i < n → IsVec g n v → v i = 0 →
      ∃ g', (forRange 0 o.n g fun j g => do
        let xi ← x.idx i
        let xj ← x.idx j
        if !Scalar.beq xi xj then do
          let w ← o.weights.idx (i * o.weights.cols + j)
          let old ← g.idx i
          g.setIdx i (old + w)
        else .ok g) = .ok g' ∧ IsVec g' n (upd1 v i (∑ j ∈ range n, t i j)) := by
    intro i g v hi hg hv
    rw [ho.size]
    refine forRange_spec (fun k g' => IsVec g' n (upd1 v i (∑ j ∈ range k, t i j))) (Nat.zero_le n) ?_ ?_
    · convert hg using 1
      funext k
      by_cases hk : k = i
      · subst hk; simp [upd1, hv]
      · simp [upd1, hk]
    · intro j g' _ hj hg'
      rw [hx.isVec.idx hi, hx.isVec.idx hj, hc, ho.weights.isMat.idx hi hj]
      simp only [Res.ok_bind, Scalar.real_beq, hg'.idx hi]
      split
      · rename_i h
        obtain ⟨a, h1, h2⟩ := hg'.setIdx hi (upd1 v i (∑ j ∈ range j, t i j) i + ext00 W i j)
        refine ⟨a, h1, ?_⟩
        convert h2 using 1
        funext k
        by_cases hk : k = i
        · subst hk
          have : t k j = ext00 W k j := by rw [ht]; simp only; rw [if_pos (by simpa using h)]
          simp [upd1, Finset.sum_range_succ, this]
        · simp [upd1, hk]
      · rename_i h
        refine ⟨g', rfl, ?_⟩
        have : t i j = 0 := by rw [ht]; simp only; rw [if_neg (by simpa using h)]
        rw [Finset.sum_range_succ, this, add_zero]
        exact hg'
  obtain ⟨g, h1, h2⟩ := forRange_spec (σ := Arr ℝ) (fun k g => IsVec g n (fun i => if i < k then ∑ j ∈ range n, t i j else 0))
    (f := fun i g => forRange 0 o.n g fun j g => do
        let xi ← x.idx i
        let xj ← x.idx j
        if !Scalar.beq xi xj then do
          let w ← o.weights.idx (i * o.weights.cols + j)
          let old ← g.idx i
          g.setIdx i (old + w)
        else .ok g) (s := Arr.new n) (Nat.zero_le n) (by
      have := isVec_new (α := ℝ) n
      convert this using 1
      funext i; simp)
    (by
      intro i g _ hi hg
      obtain ⟨g', h1, h2⟩ := inner i g _ hi hg (by simp)
      refine ⟨g', h1, ?_⟩
      convert h2 using 1
      funext k
      by_cases hk : k = i
      · subst hk; simp [upd1]
      · have : (k < i + 1) ↔ k < i := by omega
        simp [upd1, hk, this])
  have hg : RV g (fun i => crossingAt W z i) := by
    refine RV.of_isVec h2 fun i => ?_
    rw [if_pos i.2, Finset.sum_range, crossingAt]
    refine Finset.sum_congr rfl fun j _ => ?_
    simp only [ht, ext0_fin, signOf_ne, ext00, i.2, j.2, and_self, dite_true, Fin.eta]
  refine ⟨g.smul (nat 2), ?_, ?_⟩
  · rw [MaxcutOracle.grad, show (Arr.new o.n : Arr ℝ) = Arr.new n by rw [ho.size]]
    conv_lhs => rw [show (forRange 0 o.n (Arr.new n : Arr ℝ)) = forRange 0 n (Arr.new n) by rw [ho.size]]
    rw [h1]; rfl
  · have := hg.smul (nat 2)
    have h22 : (nat 2 : ℝ) = 2 := by simp [nat]
    rw [h22] at this ⊢
    exact this

/-- **C51** One query at `x`: no panic, the oracle is unchanged; improvement is reported exactly when the weight of the
edges crossing the sign partition of `x` strictly beats `γ`, the new `γ` is the larger of the two, and entry `i` of the
gradient is minus twice the crossing weight at vertex `i`. -/
theorem C51_maxcut (o : MaxcutOracle ℝ) (ho : o.For W) (xc : Arr ℝ) (hx : xc.IsVecShape n) (γ : ℝ) :
    ∃ g beta shrunk, MaxcutOracle.oracle.assess o xc γ =
        .ok (((g, ⟨beta⟩), shrunk), max γ (cutWeight W (xc.toVec n)), o) ∧
      (shrunk = true ↔ γ < cutWeight W (xc.toVec n)) ∧ g.IsVecShape n ∧
      (∀ i, g.toVec n i = -(2 * crossingAt W (xc.toVec n) i)) ∧
      beta = (if shrunk then -cutWeight W (xc.toVec n) else γ) := by
  have hs := rv_signs hx
  obtain ⟨g, hg, hg'⟩ := maxcut_grad ho hs
  have hneg : RV g.neg (fun i => -(2 * crossingAt W (xc.toVec n) i)) := rv_map hg' fun v => -v
  have hv := maxcut_value ho hs
  by_cases h : γ < cutWeight W (xc.toVec n)
  · refine ⟨g.neg, -cutWeight W (xc.toVec n), true, ?_, by simp [h], hneg.1, fun i => by rw [hneg.2], rfl⟩
    simp only [MaxcutOracle.oracle, MaxcutOracle.assess, hv, hg, Res.ok_bind, Scalar.real_gt, decide_eq_true_eq, if_pos h,
      max_eq_right h.le]
  · refine ⟨g.neg, γ, false, ?_, by simp [h], hneg.1, fun i => by rw [hneg.2], rfl⟩
    simp only [MaxcutOracle.oracle, MaxcutOracle.assess, hv, hg, Res.ok_bind, Scalar.real_gt, decide_eq_true_eq, if_neg h,
      max_eq_left (not_lt.1 h)]

/-- `γ` after a sequence of queries -/
noncomputable def MaxcutOracle.history (o : MaxcutOracle ℝ) : List (Arr ℝ) → ℝ → Res (ℝ × MaxcutOracle ℝ)
  | [], γ => .ok (γ, o)
  | x :: xs, γ => do
    let (_, γ, o) ← MaxcutOracle.oracle.assess o x γ
    history o xs γ

/-- **C51** Over any sequence of queries `γ` is the maximum of its initial value and all cut weights queried: it is an
upper bound of them, and it is one of them. -/
theorem C51_maxcut_history (o : MaxcutOracle ℝ) (ho : o.For W) (xs : List (Arr ℝ)) (hxs : ∀ x ∈ xs, x.IsVecShape n)
    (γ : ℝ) :
    ∃ γ', o.history xs γ = .ok (γ', o) ∧ γ ≤ γ' ∧ (∀ x ∈ xs, cutWeight W (x.toVec n) ≤ γ') ∧
      (γ' = γ ∨ ∃ x ∈ xs, γ' = cutWeight W (x.toVec n)) := by
  induction xs generalizing γ with
  | nil => exact ⟨γ, rfl, le_rfl, by simp, Or.inl rfl⟩
  | cons x xs ih =>
    obtain ⟨g, b, s, h1, -⟩ := C51_maxcut o ho x (hxs x (by simp)) γ
    obtain ⟨γ', h2, h3, h4, h5⟩ := ih (fun y hy => hxs y (by simp [hy])) (max γ (cutWeight W (x.toVec n)))
    refine ⟨γ', ?_, (le_max_left _ _).trans h3, ?_, ?_⟩
    · rw [MaxcutOracle.history, h1]; exact h2
    · intro y hy
      rcases List.mem_cons.1 hy with rfl | hy
      · exact (le_max_right _ _).trans h3
      · exact h4 y hy
    · rcases h5 with h | ⟨y, hy, h⟩
      · rcases max_choice γ (cutWeight W (x.toVec n)) with h' | h'
        · exact Or.inl (h.trans h')
        · exact Or.inr ⟨x, by simp, h.trans h'⟩
      · exact Or.inr ⟨y, by simp [hy], h⟩

/-- **C51** (limitation) When all entries of the starting centre have the same sign the search is stuck: whatever the
graph, for `γ ≥ 0`, positive tolerance and at least one iteration allowed, `cutting_plane_optim` stops in the first
iteration with no solution, because the gradient there is zero. -/
theorem C51_maxcut_stuck (hn : 0 < n) (o : MaxcutOracle ℝ) (ho : o.For W) (e : Ell ℝ) (he : e.Valid n) {γ : ℝ}
    (hγ : 0 ≤ γ) (opts : Options ℝ) (ht : 0 < opts.tolerance) (hi : 0 < opts.maxIters)
    (hx : (∀ i, 0 ≤ e.c n i) ∨ ∀ i, e.c n i < 0) :
    ∃ e', cuttingPlaneOptim MaxcutOracle.oracle Ell.space o e γ opts = .ok ((none, 0), γ, o, e') := by
  have hside : ∀ i j, onLeft (e.c n) i ↔ onLeft (e.c n) j := by
    intro i j
    rcases hx with h | h
    · exact ⟨fun _ => h j, fun _ => h i⟩
    · exact ⟨fun h' => absurd (h i) (not_lt.2 h'), fun h' => absurd (h j) (not_lt.2 h')⟩
  have hcw : cutWeight W (e.c n) = 0 := by
    unfold cutWeight
    refine Finset.sum_eq_zero fun i _ => Finset.sum_eq_zero fun j _ => if_neg fun h => h.2 (hside i j)
  obtain ⟨g, b, s, h1, h2, h3, h4, h5⟩ := C51_maxcut o ho e.xc he.shaped.2 γ
  have hcw' : cutWeight W (e.xc.toVec n) = 0 := hcw
  have hs : s = false := by
    rw [← Bool.not_eq_true, h2, hcw']
    exact not_lt.2 hγ
  rw [hcw', max_eq_left hγ, hs] at h1
  have hg : g.toVec n = 0 := by
    funext i
    rw [h4 i]
    have : crossingAt W (e.xc.toVec n) i = 0 :=
      Finset.sum_eq_zero fun j _ => if_neg fun h => h (hside i j)
    rw [this]; simp
  obtain ⟨st, -, -, -, e1, -, hu, htsq, -⟩ := C12_rank_one_update (n := n) .bias e (g, (⟨b⟩ : SingleCut ℝ))
    hn he.shaped he.symm h3
  have hu' : Ell.space.updateBias e (g, (⟨b⟩ : SingleCut ℝ)) = .ok (st, e1) := hu
  have htsq0 : e1.tsq = 0 := by
    rw [htsq]
    show e.kappa * (g.toVec n ⬝ᵥ (e.M n *ᵥ g.toVec n)) = 0
    rw [hg, zero_dotProduct, mul_zero]
  have hstop : Scalar.lt (Ell.space (T := SingleCut ℝ).tsq e1) opts.tolerance = true := by
    show Scalar.lt e1.tsq opts.tolerance = true
    rw [htsq0, Scalar.real_lt]
    simpa using ht
  obtain ⟨k, hk⟩ : ∃ k, opts.maxIters = k + 1 := ⟨opts.maxIters - 1, by omega⟩
  have h1' : MaxcutOracle.oracle.assess o (Ell.space (T := SingleCut ℝ).xc e) γ = .ok (((g, ⟨b⟩), false), γ, o) := h1
  refine ⟨e1, ?_⟩
  rw [cuttingPlaneOptim, hk]
  unfold optimLoop
  simp only [h1', Res.ok_bind, Bool.false_eq_true, if_false, hu', hstop, Bool.or_true, if_true]

end Ellalgo

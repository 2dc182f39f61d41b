import Verif.Lib.Profit64
import Verif.Lib.ExpLog64
import Verif.Props.Oracles64Runs
import Verif.Lib.Maxcut64

/-! # C128: what the profit oracles and their runs report in IEEE `f64` -/

namespace Ellalgo
open Matrix

/-- **C128** (any arithmetic)  One query of `ProfitOracle`, in `f64` or any other arithmetic, at any point with two coordinates, NaN and infinities
included, whatever the history: no panic, and the data of the oracle stays as it is.
* Accepted: neither constraint was found violated; the new value is the profit as computed at the queried point, and the cut is central.
* Rejected: the value stays, and the offset of the cut is a violation that was found positive. -/
theorem C128_profit_query {α : Type} [Scalar α] (o : ProfitOracle α) (ho : o.Shaped) (y : Arr α) (hy : y.IsVecShape 2) (γ : α) :
    ∃ g beta shrunk γ' o', ProfitOracle.oracle.assess o y γ = .ok (((g, ⟨beta⟩), shrunk), γ', o') ∧ o'.Shaped ∧ o.SameData o' ∧
      g.IsVecShape 2 ∧
      (shrunk = true → Scalar.gt (y.vec 0 - o.logK) 0 = false ∧ Scalar.gt (Scalar.ln (γ + o.costOf y) - o.logOf y) 0 = false ∧
        γ' = o.profitOf y ∧ beta = 0) ∧
      (shrunk = false → γ' = γ ∧ Scalar.gt beta 0 = true ∧ (beta = y.vec 0 - o.logK ∨ beta = Scalar.ln (γ + o.costOf y) - o.logOf y)) :=
  profit_assess_any ho hy γ

variable {d : ProfitData}

theorem ProfitOracle.SameData.logOf {o o' : ProfitOracle B64} (h : o.SameData o') (y : Arr B64) : o'.logOf y = o.logOf y := by
  unfold ProfitOracle.logOf; rw [h.scale, h.elas]
theorem ProfitOracle.SameData.costOf {o o' : ProfitOracle B64} (h : o.SameData o') (y : Arr B64) : o'.costOf y = o.costOf y := by
  unfold ProfitOracle.costOf; rw [h.cost]

theorem ProfitOracle.For64.step {o o' : ProfitOracle B64} (h : o.For64 d) (hs : o'.Shaped) (hd : o.SameData o') : o'.For64 d :=
  ⟨hs, ⟨hd.scale ▸ h.stores.scale, hd.limit ▸ h.stores.limit, hd.cost ▸ h.stores.cost⟩, hd.elas ▸ h.elas⟩

/-- the array of the values -/
noncomputable def Arr.toFl (a : Arr B64) : Arr (Fl bin53) := ⟨a.data.map fun v => ⟨v.val⟩, a.rows, a.cols⟩

theorem Arr.toFl_vec {a : Arr B64} (i : Nat) : (a.toFl).vec i = ⟨(a.vec i).val⟩ := by
  show (a.data.map fun v => (⟨v.val⟩ : Fl bin53)).getD i 0 = ⟨(a.data.getD i 0).val⟩
  rw [List.getD_eq_getElem?_getD, List.getD_eq_getElem?_getD, List.getElem?_map]
  cases a.data[i]? <;> rfl

theorem Arr.toFl_shape {a : Arr B64} {n : Nat} (h : a.IsVecShape n) : a.toFl.IsVecShape n :=
  ⟨h.1, h.2.1, by rw [← h.2.2]; exact List.length_map _⟩

/-- the oracle on the values -/
noncomputable def ProfitOracle.toFl (o : ProfitOracle B64) : ProfitOracle (Fl bin53) :=
  ⟨o.idx, ⟨o.logPScale.val⟩, ⟨o.logK.val⟩, o.priceOut.toFl, o.elasticities.toFl, ⟨0, 0, Arr.new 2⟩⟩

theorem ProfitOracle.For64.toFl {o : ProfitOracle B64} (h : o.For64 d) : o.toFl.FlFor d where
  lo := h.shaped.lo
  hi := h.shaped.hi
  scale := h.stores.scale.2
  limit := h.stores.limit.2
  costShape := Arr.toFl_shape h.shaped.cost
  cost := funext fun i => by
    show (o.priceOut.toFl.vec i).val = _
    rw [Arr.toFl_vec]; exact (h.stores.cost i).2
  elasShape := Arr.toFl_shape h.shaped.elas
  elas := funext fun i => by
    show (o.elasticities.toFl.vec i).val = _
    rw [Arr.toFl_vec]; exact (h.elas i).2

theorem allFinite_vec {y : Arr B64} (hf : y.AllFinite) (i : Nat) : (y.vec i).Finite := by
  show (y.data.getD i 0).Finite
  by_cases hi : i < y.data.length
  · rw [List.getD_eq_getElem?_getD, List.getElem?_eq_getElem hi]
    exact hf _ (List.getElem_mem hi)
  · rw [List.getD_eq_getElem?_getD, List.getElem?_eq_none (by omega)]
    trivial

/-- the profit as computed in `f64` is the one computed with rounding to 53 bits -/
theorem profitOf_same {o : ProfitOracle B64} (ho : o.For64 d) (hd : d.Tame) {y : Arr B64} (hf : y.AllFinite)
    (hy : d.TameAt (y.vec64 2)) : Same (o.profitOf y) (Scalar.exp (o.toFl.flLog y.toFl) - o.toFl.flCost y.toFl) := by
  have sy : ∀ i : Nat, Same (y.vec i) (y.toFl.vec i) := fun i => ⟨allFinite_vec hf i, by rw [Arr.toFl_vec]⟩
  have se : ∀ i : Fin 2, Same (o.elasticities.vec i) (o.toFl.elasticities.vec i) := fun i =>
    ⟨(ho.elas i).1, by show _ = (o.elasticities.toFl.vec i).val; rw [Arr.toFl_vec]⟩
  have sc : ∀ i : Fin 2, Same (o.priceOut.vec i) (o.toFl.priceOut.vec i) := fun i =>
    ⟨(ho.stores.cost i).1, by show _ = (o.priceOut.toFl.vec i).val; rw [Arr.toFl_vec]⟩
  have ve : ∀ i : Fin 2, (o.toFl.elasticities.vec i).val = d.elas i := fun i => (se i).2.symm.trans (ho.elas i).2
  have vc : ∀ i : Fin 2, (o.toFl.priceOut.vec i).val = d.cost i := fun i => (sc i).2.symm.trans (ho.stores.cost i).2
  have vy : ∀ i : Fin 2, (y.toFl.vec i).val = y.vec64 2 i := fun i => (sy i).2.symm
  have p6 : (64 : ℝ) = (2 : ℝ) ^ (6 : ℤ) := by norm_num
  -- the logarithm
  have st : ∀ i : Fin 2, Same (o.elasticities.vec i * y.vec i) (o.toFl.elasticities.vec i * y.toFl.vec i) ∧
      |(o.toFl.elasticities.vec i * y.toFl.vec i).val| ≤ 64 := by
    intro i
    have h1 : |(o.toFl.elasticities.vec i).val * (y.toFl.vec i).val| ≤ (2 : ℝ) ^ (6 : ℤ) := by
      rw [ve, vy, ← p6]; exact hy.over i
    refine ⟨(se i).mul (sy i) ⟨?_, noOver_pow h1 (by norm_num)⟩, ?_⟩
    · rw [ve, vy]; exact hy.under i
    · rw [p6]; exact rnd53_abs_pow h1
  have s0 := st 0
  have s1 := st 1
  obtain ⟨s0, b0⟩ := s0
  obtain ⟨s1, b1⟩ := s1
  have z0 : Same (0 + o.elasticities.vec 0 * y.vec 0) (0 + o.toFl.elasticities.vec 0 * y.toFl.vec 0) ∧
      |(0 + o.toFl.elasticities.vec 0 * y.toFl.vec 0).val| ≤ 64 := by
    have h1 : |(0 : Fl bin53).val + (o.toFl.elasticities.vec (0 : Fin 2) * y.toFl.vec (0 : Fin 2)).val| ≤ (2 : ℝ) ^ (6 : ℤ) := by
      rw [Fl.zero_val, zero_add, ← p6]; exact b0
    exact ⟨Same.zero.add s0 (noOver_pow h1 (by norm_num)), by rw [p6]; exact rnd53_abs_pow h1⟩
  obtain ⟨z0, c0⟩ := z0
  have z1 : Same (0 + o.elasticities.vec 0 * y.vec 0 + o.elasticities.vec 1 * y.vec 1)
        (0 + o.toFl.elasticities.vec 0 * y.toFl.vec 0 + o.toFl.elasticities.vec 1 * y.toFl.vec 1) ∧
      |(0 + o.toFl.elasticities.vec 0 * y.toFl.vec 0 + o.toFl.elasticities.vec 1 * y.toFl.vec 1).val| ≤ (2 : ℝ) ^ (7 : ℤ) := by
    have h1 : |(0 + o.toFl.elasticities.vec 0 * y.toFl.vec 0).val + (o.toFl.elasticities.vec 1 * y.toFl.vec 1).val| ≤ (2 : ℝ) ^ (7 : ℤ) := by
      refine (abs_add_le _ _).trans ((add_le_add c0 b1).trans ?_)
      norm_num
    exact ⟨z0.add s1 (noOver_pow h1 (by norm_num)), rnd53_abs_pow h1⟩
  obtain ⟨z1, c1⟩ := z1
  have hp : (0 : ℝ) < d.price * d.scale := mul_pos hd.pos.price hd.pos.scale
  have sS : Same o.logPScale o.toFl.logPScale := ⟨ho.stores.scale.1, rfl⟩
  have bS : |o.toFl.logPScale.val| ≤ (2 : ℝ) ^ (6 : ℤ) := by
    show |o.logPScale.val| ≤ _
    rw [ho.stores.scale.2]
    refine rnd53_abs_pow ?_
    have r1 := rnd53_mono _ _ hd.scale.1
    have r2 := rnd53_mono _ _ hd.scale.2
    rw [rnd53_pow] at r1 r2
    have := log_abs_le (b := 64) (x := rnd53 (d.price * d.scale)) r1 r2
    refine this.trans ?_
    norm_num
  have sL : Same (o.logOf y) (o.toFl.flLog y.toFl) ∧ |(o.toFl.flLog y.toFl).val| ≤ (2 : ℝ) ^ (8 : ℤ) := by
    have h1 : |o.toFl.logPScale.val +
        (0 + o.toFl.elasticities.vec 0 * y.toFl.vec 0 + o.toFl.elasticities.vec 1 * y.toFl.vec 1).val| ≤ (2 : ℝ) ^ (8 : ℤ) := by
      refine (abs_add_le _ _).trans ((add_le_add bS c1).trans ?_)
      norm_num
    exact ⟨sS.add z1 (noOver_pow h1 (by norm_num)), rnd53_abs_pow h1⟩
  obtain ⟨sL, bL⟩ := sL
  -- the costs
  have sq : ∀ i : Fin 2, Same (o.priceOut.vec i * Scalar.exp (y.vec i)) (o.toFl.priceOut.vec i * Scalar.exp (y.toFl.vec i)) ∧
      |(o.toFl.priceOut.vec i * Scalar.exp (y.toFl.vec i)).val| ≤ (2 : ℝ) ^ (912 : ℤ) := by
    intro i
    have hb : |(y.toFl.vec i).val| ≤ 256 := by rw [vy]; exact hy.point i
    obtain ⟨l1, l2⟩ := abs_le.1 hb
    have e1 := rnd53_mono _ _ (pow_le_exp l1)
    have e2 := rnd53_mono _ _ (exp_le_pow l2)
    rw [rnd53_pow] at e1 e2
    have e1' : (2 : ℝ) ^ (-512 : ℤ) ≤ (Scalar.exp (y.toFl.vec i)).val := e1
    have e2' : (Scalar.exp (y.toFl.vec i)).val ≤ (2 : ℝ) ^ (512 : ℤ) := e2
    have hc := hd.cost i
    rw [← vc i] at hc
    have q1 : (2 : ℝ) ^ (-912 : ℤ) ≤ (o.toFl.priceOut.vec i).val * (Scalar.exp (y.toFl.vec i)).val := by
      rw [show (-912 : ℤ) = -400 + -512 by norm_num, zpow_add₀ (by norm_num)]
      exact mul_le_mul hc.1 e1' (by positivity) (le_trans (by positivity) hc.1)
    have q2 : (o.toFl.priceOut.vec i).val * (Scalar.exp (y.toFl.vec i)).val ≤ (2 : ℝ) ^ (912 : ℤ) := by
      rw [show (912 : ℤ) = 400 + 512 by norm_num, zpow_add₀ (by norm_num)]
      exact mul_le_mul hc.2 e2' (le_trans (by positivity) e1') (by positivity)
    have q0 : (0 : ℝ) < (o.toFl.priceOut.vec i).val * (Scalar.exp (y.toFl.vec i)).val := lt_of_lt_of_le (by positivity) q1
    have q3 : |(o.toFl.priceOut.vec i).val * (Scalar.exp (y.toFl.vec i)).val| ≤ (2 : ℝ) ^ (912 : ℤ) := by rw [abs_of_pos q0]; exact q2
    refine ⟨(sc i).mul ((sy i).exp hb) ⟨.inr ?_, noOver_pow q3 (by norm_num)⟩, rnd53_abs_pow q3⟩
    rw [abs_of_pos q0]
    exact le_trans (zpow_le_zpow_right₀ (by norm_num) (by norm_num)) q1
  have sC : Same (o.costOf y) (o.toFl.flCost y.toFl) ∧ |(o.toFl.flCost y.toFl).val| ≤ (2 : ℝ) ^ (913 : ℤ) := by
    obtain ⟨a0, a1⟩ := sq 0
    obtain ⟨a2, a3⟩ := sq 1
    have h1 : |(o.toFl.priceOut.vec (0 : Fin 2) * Scalar.exp (y.toFl.vec (0 : Fin 2))).val +
        (o.toFl.priceOut.vec (1 : Fin 2) * Scalar.exp (y.toFl.vec (1 : Fin 2))).val| ≤ (2 : ℝ) ^ (913 : ℤ) := by
      refine (abs_add_le _ _).trans ((add_le_add a1 a3).trans (le_of_eq ?_))
      rw [show (913 : ℤ) = 912 + 1 by norm_num, zpow_add₀ (by norm_num), zpow_one, mul_two]
    exact ⟨a0.add a2 (noOver_pow h1 (by norm_num)), rnd53_abs_pow h1⟩
  obtain ⟨sC, bC⟩ := sC
  have bL' : |(o.toFl.flLog y.toFl).val| ≤ 256 := bL.trans (by norm_num)
  have bE : |(Scalar.exp (o.toFl.flLog y.toFl)).val| ≤ (2 : ℝ) ^ (913 : ℤ) := by
    refine rnd53_abs_pow ?_
    rw [abs_of_pos (Real.exp_pos _)]
    exact (exp_le_pow (abs_le.1 bL').2).trans (zpow_le_zpow_right₀ (by norm_num) (by norm_num))
  refine (sL.exp bL').sub sC (noOver_pow (b := 914) ?_ (by norm_num))
  refine (abs_sub _ _).trans ((add_le_add bE bC).trans (le_of_eq ?_))
  rw [show (914 : ℤ) = 913 + 1 by norm_num, zpow_add₀ (by norm_num), zpow_one, mul_two]

/-- a difference that is not found positive -/
theorem gt_sub_false {a b : B64} (ha : a.Finite) (hb : b.Finite) (h : Scalar.gt (a - b) 0 = false) : a.val ≤ b.val := by
  by_contra hc
  rw [not_le, ← sub_pos] at hc
  have hn := B64.neg_val hb
  have e1 : a - b = B64.ofReal (a.sgn && (-b).sgn) (a.val - b.val) := by
    have := B64.finite_add ha hn.1
    rw [hn.2, ← sub_eq_add_neg] at this
    exact this
  have e2 : rnd64 (a.val - b.val) = rnd53 (a.val - b.val) := by
    have := rnd64_add (B64.rep_val ha) (B64.rep_val hn.1)
    rwa [hn.2, ← sub_eq_add_neg] at this
  have hpos : 0 < rnd64 (a.val - b.val) := by
    rw [e2]; exact (rnd_pos_iff bin53 (by norm_num) _).2 hc
  rw [e1] at h
  rcases B64.ofReal_cases (a.sgn && (-b).sgn) (a.val - b.val) with ⟨h1, -⟩ | ⟨-, -, x, hx, h2⟩ | ⟨-, h2⟩
  · exact hpos.ne' h1
  · rw [h2] at h
    have h3 : decide ((0 : ℝ) < x.x) = false := h
    have h4 : x.x = rnd64 (a.val - b.val) := hx
    rw [h4] at h3
    exact absurd hpos (of_decide_eq_false h3)
  · rw [h2, decide_eq_false (not_lt.2 hc.le)] at h
    exact absurd (show true = false from h) (by simp)

theorem toFl_vec64 {n : Nat} (y : Arr B64) : y.toFl.flVec n = y.vec64 n := funext fun i => by
  show (y.toFl.vec i).val = _
  rw [Arr.toFl_vec]; rfl

theorem two53_eighth : (2 : ℝ) ^ (-53 : ℤ) ≤ 1 / 8 := by norm_num

/-- **C128** (value)  For a `ProfitOracle` in `f64` with data of ordinary size: the profit it computes at a point of ordinary size is a finite
number, the true profit at this point up to `profitErr`, for `u = 2⁻⁵³`. -/
theorem C128_profit_value {o : ProfitOracle B64} (ho : o.For64 d) (hd : d.Tame) {y : Arr B64} (hf : y.AllFinite)
    (hy : d.TameAt (y.vec64 2)) :
    (o.profitOf y).Finite ∧ |(o.profitOf y).val - d.profit (y.vec64 2)| ≤ d.profitErr ((2 : ℝ) ^ (-53 : ℤ)) (y.vec64 2) := by
  have h1 := profitOf_same ho hd hf hy
  have h2 := profit_value_err two53_eighth hd.pos ho.toFl y.toFl
  rw [toFl_vec64] at h2
  exact ⟨h1.1, by rw [h1.2]; exact h2⟩

/-- **C128** (runs)  `cutting_plane_optim` in IEEE-754 `f64` with a profit oracle for the data `d`, over any search space that keeps its dimension,
`Ell` and `EllStable` among them, whatever overflows, underflows or turns into a NaN in it on the way: the run ends without a panic, and without
a solution `γ` is unchanged.  A returned point of finite numbers obeys the stored limit; if it is of ordinary size, the reported `γ'` is finite and
is the true profit of this point up to `profitErr`, for `u = 2⁻⁵³`. -/
theorem C128_profit_run {S : Type} {sp : Space S (Arr B64) (SingleCut B64) B64} {Q : S → Prop} (hsp : sp.Steady 2 Q)
    (hd : d.Tame) (o : ProfitOracle B64) (ho : o.For64 d) {s : S} (hs : Q s) (γ : B64) (opts : Options B64) :
    ∃ r k γ' o' s', cuttingPlaneOptim ProfitOracle.oracle sp o s γ opts = .ok ((r, k), γ', o', s') ∧ (r = none → γ' = γ) ∧
      ∀ y, r = some y → y.IsVecShape 2 ∧ (y.AllFinite → y.vec64 2 0 ≤ rnd53 (Real.log d.limit) ∧
        (d.TameAt (y.vec64 2) →
          γ'.Finite ∧ |γ'.val - d.profit (y.vec64 2)| ≤ d.profitErr ((2 : ℝ) ^ (-53 : ℤ)) (y.vec64 2))) := by
  obtain ⟨r, k, γ', w', s', h1, h2, h3, h4⟩ := optim_accepted hsp (I := fun w _ => w.For64 d)
    (orc := ProfitOracle.oracle) (w := o) (s := s) (g := γ) (by
      intro w x g hw hx
      obtain ⟨gr, beta, sh, g', w', hq, hw', hsd, hsh, -, h5⟩ := C128_profit_query w hw.shaped x hx g
      exact ⟨(gr, ⟨beta⟩), sh, g', w', hq, hw.step hw' hsd, fun h => (h5 h).1, hsh⟩) opts ho hs
  refine ⟨r, k, γ', w', s', h1, h3, ?_⟩
  intro x hx
  obtain ⟨hxs, w1, g1, c, w2, hw1, hq⟩ := h4 x hx
  obtain ⟨gr, beta, sh, g', w3, hq', -, -, -, h5, -⟩ := C128_profit_query w1 hw1.shaped x hxs g1
  rw [hq] at hq'
  simp only [Res.ok.injEq, Prod.mk.injEq] at hq'
  obtain ⟨⟨-, rfl⟩, rfl, -⟩ := hq'
  obtain ⟨t1, -, rfl, -⟩ := h5 rfl
  refine ⟨hxs, fun hf => ⟨?_, fun ht => C128_profit_value hw1 hd hf ht⟩⟩
  have := gt_sub_false (allFinite_vec hf 0) hw1.stores.limit.1 t1
  rwa [hw1.stores.limit.2] at this

/-! ### the robust oracle -/

theorem ProfitData.worst_pos (h : d.Tame) (e1 e2 : ℝ) (y : Fin 2 → ℝ) : (d.flWorstAt bin53 e1 e2 y).Tame :=
  ⟨⟨h.pos.price, h.pos.scale, h.pos.limit, h.pos.cost⟩, h.scale, h.cost⟩

theorem elas_move {a e : B64} {x t : ℝ} (ha : a.Equals x) (he : e.Equals t) (hx : |x| ≤ (2 : ℝ) ^ (1000 : ℤ)) (ht : |t| ≤ (2 : ℝ) ^ (1000 : ℤ))
    {y : B64} (hy : y.Finite) : (a + (if Scalar.gt y 0 then -e else e)).Equals (rnd53 (x + if 0 < y.val then -t else t)) := by
  have hg : Scalar.gt y 0 = true ↔ 0 < y.val := (C99_normal_range 0 y trivial hy).2.2.2.2.2.1
  have key : ∀ e' : B64, ∀ t' : ℝ, e'.Equals t' → |t'| ≤ (2 : ℝ) ^ (1000 : ℤ) → (a + e').Equals (rnd53 (x + t')) := by
    intro e' t' he' ht'
    have h := (C99_normal_range a e' ha.1 he'.1).1
    rw [ha.2, he'.2] at h
    refine h (noOver_pow (b := 1001) ?_ (by norm_num))
    refine (abs_add_le _ _).trans ((add_le_add hx ht').trans (le_of_eq ?_))
    rw [show (1001 : ℤ) = 1000 + 1 by norm_num, zpow_add₀ (by norm_num), zpow_one, mul_two]
  by_cases h : 0 < y.val
  · rw [if_pos (hg.2 h), if_pos h]
    have hn := B64.neg_val he.1
    exact key _ _ ⟨hn.1, by rw [hn.2, he.2]⟩ (by rw [abs_neg]; exact ht)
  · rw [if_neg (fun h' => h (hg.1 h')), if_neg h]
    exact key _ _ he ht

/-- **C128** (robust runs)  The same with the robust oracle: the reported `γ'` is the profit with the worst elasticities at the returned point up to
`profitErr`. -/
theorem C128_robust_run {S : Type} {sp : Space S (Arr B64) (SingleCut B64) B64} {Q : S → Prop} (hsp : sp.Steady 2 Q)
    (hd : d.Tame) {e1 e2 : ℝ} (he : ∀ i, |d.elas i| ≤ (2 : ℝ) ^ (1000 : ℤ)) (he1 : |e1| ≤ (2 : ℝ) ^ (1000 : ℤ))
    (he2 : |e2| ≤ (2 : ℝ) ^ (1000 : ℤ)) (o : ProfitRbOracle B64) (ho : o.For64 d e1 e2) {s : S} (hs : Q s) (γ : B64) (opts : Options B64) :
    ∃ r k γ' o' s', cuttingPlaneOptim ProfitRbOracle.oracle sp o s γ opts = .ok ((r, k), γ', o', s') ∧ (r = none → γ' = γ) ∧
      ∀ y, r = some y → y.IsVecShape 2 ∧ (y.AllFinite → y.vec64 2 0 ≤ rnd53 (Real.log d.limit) ∧
        ((d.flWorstAt bin53 e1 e2 (y.vec64 2)).TameAt (y.vec64 2) →
          γ'.Finite ∧ |γ'.val - (d.flWorstAt bin53 e1 e2 (y.vec64 2)).profit (y.vec64 2)| ≤
            (d.flWorstAt bin53 e1 e2 (y.vec64 2)).profitErr ((2 : ℝ) ^ (-53 : ℤ)) (y.vec64 2))) := by
  have query : ∀ (w : ProfitRbOracle B64) (x : Arr B64) (g : B64), w.For64 d e1 e2 → x.IsVecShape 2 →
      ∃ a gr beta sh g' w', ProfitRbOracle.oracle.assess w x g = .ok (((gr, ⟨beta⟩), sh), g', w') ∧ w'.For64 d e1 e2 ∧ gr.IsVecShape 2 ∧
        (sh = true → Scalar.gt (x.vec 0 - w.omega.logK) 0 = false ∧ g' = ({ w.omega with elasticities := a }).profitOf x) ∧
        (sh = false → g' = g) ∧
        (x.AllFinite → ({ w.omega with elasticities := a }).For64 (d.flWorstAt bin53 e1 e2 (x.vec64 2))) := by
    intro w x g hw hx
    obtain ⟨a, ha, has, a0, a1⟩ := rb_worst_any hw.elasShape hx
    have hsh : ({ w.omega with elasticities := a }).Shaped := ⟨hw.shaped.lo, hw.shaped.hi, hw.shaped.cost, has⟩
    obtain ⟨gr, beta, sh, g', w', hq, hw', hsd, hg, h5, h6⟩ := C128_profit_query _ hsh x hx g
    have hq' : ({ w.omega with elasticities := a }).assess x g = .ok (((gr, ⟨beta⟩), sh), g', w') := hq
    refine ⟨a, gr, beta, sh, g', { w with omega := w' }, ?_, ?_, hg, fun h => ⟨(h5 h).1, (h5 h).2.2.1⟩, fun h => (h6 h).1, fun hf => ?_⟩
    · simp only [ProfitRbOracle.oracle, ProfitRbOracle.assess, ha, Res.ok_bind, hq']
    · exact ⟨hw', ⟨hsd.scale ▸ hw.stores.scale, hsd.limit ▸ hw.stores.limit, hsd.cost ▸ hw.stores.cost⟩, hw.elasShape, hw.elas, hw.uie0, hw.uie1⟩
    · refine ⟨hsh, ⟨hw.stores.scale, hw.stores.limit, hw.stores.cost⟩, fun i => ?_⟩
      fin_cases i
      · show (a.vec 0).Equals _
        rw [a0]
        exact elas_move (hw.elas 0) hw.uie0 (he 0) he1 (allFinite_vec hf 0)
      · show (a.vec 1).Equals _
        rw [a1]
        exact elas_move (hw.elas 1) hw.uie1 (he 1) he2 (allFinite_vec hf 1)
  obtain ⟨r, k, γ', w', s', h1, h2, h3, h4⟩ := optim_accepted hsp (I := fun w _ => w.For64 d e1 e2)
    (orc := ProfitRbOracle.oracle) (w := o) (s := s) (g := γ) (by
      intro w x g hw hx
      obtain ⟨a, gr, beta, sh, g', w', hq, hw', hg, -, h5, -⟩ := query w x g hw hx
      exact ⟨(gr, ⟨beta⟩), sh, g', w', hq, hw', h5, hg⟩) opts ho hs
  refine ⟨r, k, γ', w', s', h1, h3, ?_⟩
  intro x hx
  obtain ⟨hxs, w1, g1, c, w2, hw1, hq⟩ := h4 x hx
  obtain ⟨a, gr, beta, sh, g', w3, hq', -, -, h5, -, h6⟩ := query w1 x g1 hw1 hxs
  rw [hq] at hq'
  simp only [Res.ok.injEq, Prod.mk.injEq] at hq'
  obtain ⟨⟨-, rfl⟩, rfl, -⟩ := hq'
  obtain ⟨t1, rfl⟩ := h5 rfl
  refine ⟨hxs, fun hf => ⟨?_, fun ht => C128_profit_value (h6 hf) (ProfitData.worst_pos hd _ _ _) hf ht⟩⟩
  have := gt_sub_false (allFinite_vec hf 0) hw1.stores.limit.1 t1
  rwa [hw1.stores.limit.2] at this

end Ellalgo

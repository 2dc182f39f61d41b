import Verif.Props.ProfitProps

/-! C49: the discrete profit oracle. -/

namespace Ellalgo
open Matrix

variable {d : ProfitData}

/-- `v` is the logarithm of a vector of positive integers -/
def IsLogInt (v : Fin 2 → ℝ) : Prop := ∃ k : Fin 2 → ℕ, (∀ i, 1 ≤ k i) ∧ ∀ i, v i = Real.log (k i)

/-- `v` is the logarithm of the positive integer vector nearest to `exp y` -/
def IsLogRound (y v : Fin 2 → ℝ) : Prop := ∃ k : Fin 2 → ℕ, (∀ i, 1 ≤ k i) ∧ (∀ i, v i = Real.log (k i)) ∧
  ∀ i, |(k i : ℝ) - Real.exp (y i)| ≤ 1 / 2 ∨ (k i = 1 ∧ Real.exp (y i) < 1 / 2)

/-- the internal state of a `ProfitOracleQ` built for data `d`: `yd` is whatever discrete point an earlier query left -/
structure ProfitOracleQ.For (o : ProfitOracleQ ℝ) (d : ProfitData) : Prop where
  inner : o.omega.For d
  yd : o.yd.IsVecShape 2
  int : IsLogInt (o.yd.toVec 2)

/-- rounding a positive number to a positive integer: half up, but at least 1 -/
noncomputable def roundPos (x : ℝ) : ℕ := max 1 ⌊x + 1 / 2⌋₊

theorem roundPos_nearest {x : ℝ} (hx : 0 < x) :
    |(roundPos x : ℝ) - x| ≤ 1 / 2 ∨ (roundPos x = 1 ∧ x < 1 / 2) := by
  by_cases h : x < 1 / 2
  · right
    refine ⟨?_, h⟩
    have : ⌊x + 1 / 2⌋₊ = 0 := Nat.floor_eq_zero.2 (by linarith)
    rw [roundPos, this]; rfl
  · left
    have h1 : 1 ≤ ⌊x + 1 / 2⌋₊ := Nat.le_floor (by push_cast; linarith)
    rw [roundPos, max_eq_right h1]
    have a := Nat.floor_le (show 0 ≤ x + 1 / 2 by linarith)
    have b := Nat.lt_floor_add_one (x + 1 / 2)
    rw [abs_le]
    constructor <;> linarith

theorem round_eq {x : ℝ} (hx : 0 < x) : (if Scalar.round x = 0 then 1 else Scalar.round x) = (roundPos x : ℝ) := by
  have h0 : Scalar.round x = ((⌊x + 1 / 2⌋₊ : ℕ) : ℝ) := by
    show (if 0 ≤ x then (⌊x + 1/2⌋ : ℝ) else (⌈x - 1/2⌉ : ℝ)) = _
    rw [if_pos hx.le]
    exact (natCast_floor_eq_intCast_floor (by linarith)).symm
  rw [h0, roundPos]
  split
  · rename_i h
    have h : ⌊x + 1 / 2⌋₊ = 0 := by exact_mod_cast h
    rw [h]; simp
  · rename_i h
    have h : ⌊x + 1 / 2⌋₊ ≠ 0 := by exact_mod_cast h
    rw [max_eq_right (by omega)]

theorem setIdx_spec {n : Nat} {x : Arr ℝ} {v : Fin n → ℝ} (hx : RV x v) (i : Fin n) (t : ℝ) :
    ∃ z, x.setIdx i t = .ok z ∧ RV z (Function.update v i t) := by
  obtain ⟨z, h1, h2⟩ := hx.isVec.setIdx i.2 t
  refine ⟨z, h1, RV.of_isVec h2 fun j => ?_⟩
  by_cases hj : j = i
  · subst hj; simp [upd1]
  · have : (j : Nat) ≠ i := fun h => hj (Fin.ext h)
    simp [hj, this, upd1]

theorem profitRound_spec {y : Arr ℝ} {v : Fin 2 → ℝ} (hy : RV y v) :
    ∃ z, profitRound y = .ok z ∧ RV z (fun i => Real.log (roundPos (Real.exp (v i)))) := by
  have hx := rv_map hy (fun t => Scalar.round (Real.exp t))
  set x := y.map (fun t => Scalar.round (Real.exp t)) with hxdef
  have h0 : x.idx 0 = .ok (Scalar.round (Real.exp (v 0))) := RV.idx hx 0
  obtain ⟨x1, hx1, hx1v⟩ : ∃ x1, (if Scalar.beq (Scalar.round (Real.exp (v 0))) 0 then x.setIdx 0 1 else .ok x) = .ok x1 ∧
      RV x1 ![(roundPos (Real.exp (v 0)) : ℝ), Scalar.round (Real.exp (v 1))] := by
    simp only [Scalar.real_beq, decide_eq_true_eq]
    rw [← round_eq (Real.exp_pos (v 0))]
    split
    · obtain ⟨z, h1, h2⟩ := setIdx_spec hx 0 1
      refine ⟨z, h1, ?_⟩
      convert h2 using 1
      funext i; fin_cases i <;> simp
    · refine ⟨x, rfl, ?_⟩
      convert hx using 1
      funext i; fin_cases i <;> simp
  have h1 : x1.idx 1 = .ok (Scalar.round (Real.exp (v 1))) := RV.idx hx1v 1
  obtain ⟨x2, hx2, hx2v⟩ : ∃ x2, (if Scalar.beq (Scalar.round (Real.exp (v 1))) 0 then x1.setIdx 1 1 else .ok x1) = .ok x2 ∧
      RV x2 ![(roundPos (Real.exp (v 0)) : ℝ), (roundPos (Real.exp (v 1)) : ℝ)] := by
    simp only [Scalar.real_beq, decide_eq_true_eq]
    rw [← round_eq (Real.exp_pos (v 1))]
    split
    · obtain ⟨z, h1, h2⟩ := setIdx_spec hx1v 1 1
      refine ⟨z, h1, ?_⟩
      convert h2 using 1
      funext i; fin_cases i <;> simp
    · exact ⟨x1, rfl, hx1v⟩
  refine ⟨x2.map Real.log, ?_, ?_⟩
  · have hx' : (y.map fun v => Scalar.round (Scalar.exp v)) = x := rfl
    simp only [profitRound, hx', h0, Res.ok_bind]
    have hlast : (if Scalar.beq (Scalar.round (Real.exp (v 1))) 0 = true then do
          let x ← x1.setIdx 1 1
          Res.ok (Arr.map Scalar.ln x)
        else Res.ok (Arr.map Scalar.ln x1)) = Res.ok (Arr.map Real.log x2) := by
      split at hx2
      · rename_i c
        rw [if_pos c, hx2, Res.ok_bind]; rfl
      · rename_i c
        rw [if_neg c]
        obtain rfl : x1 = x2 := by simpa using hx2
        rfl
    split at hx1
    · rename_i c
      rw [if_pos c, hx1, Res.ok_bind, h1, Res.ok_bind]
      exact hlast
    · rename_i c
      obtain rfl : x = x1 := by simpa using hx1
      rw [if_neg c, h1, Res.ok_bind]
      exact hlast
  · convert rv_map hx2v Real.log using 1
    funext i; fin_cases i <;> rfl

theorem isLogInt_round (v : Fin 2 → ℝ) : IsLogInt fun i => Real.log (roundPos (Real.exp (v i))) :=
  ⟨fun i => roundPos (Real.exp (v i)), fun _ => le_max_left _ _, fun _ => rfl⟩

theorem isLogRound_round (v : Fin 2 → ℝ) : IsLogRound v fun i => Real.log (roundPos (Real.exp (v i))) :=
  ⟨fun i => roundPos (Real.exp (v i)), fun _ => le_max_left _ _, fun _ => rfl, fun _ => roundPos_nearest (Real.exp_pos _)⟩

/-- the second half of `assess_optim_q`: the answer is the one of `assess_optim` at the discrete point, with `beta`
shifted by `gᵀ(yd - y)` -/
theorem cutAtYd_spec (h : d.Pos) (o : ProfitOracleQ ℝ) (ho : o.For d) {y : Arr ℝ} (hy : y.IsVecShape 2)
    {γ : ℝ} (hγ : 0 ≤ γ) (retry : Bool) :
    ∃ g beta shrunk γ' o', o.cutAtYd y γ retry = .ok (((g, ⟨beta⟩), shrunk, o.yd, !retry), γ', o') ∧
      o'.For d ∧ o'.yd = o.yd ∧
      MaxAnswer d.feasible d.profit (o.yd.toVec 2) γ g
        (beta - g.toVec 2 ⬝ᵥ (o.yd.toVec 2 - y.toVec 2)) shrunk γ' ∧
      (shrunk = true → g.toVec 2 = d.grad γ' (o.yd.toVec 2)) := by
  obtain ⟨g, b, s, γ', w, hq, hw, hm, -, hgr⟩ := profit_assess h o.omega ho.inner o.yd ho.yd hγ
  obtain ⟨z, hz, hzv⟩ := RV.sub (⟨ho.yd, rfl⟩ : RV o.yd (o.yd.toVec 2)) (⟨hy, rfl⟩ : RV y (y.toVec 2))
  have hdot := RV.dot (⟨hm.shape, rfl⟩ : RV g (g.toVec 2)) hzv
  have hq' : o.omega.assess o.yd γ = .ok (((g, ⟨b⟩), s), γ', w) := hq
  refine ⟨g, b + g.toVec 2 ⬝ᵥ (o.yd.toVec 2 - y.toVec 2), s, γ', { o with omega := w }, ?_, ⟨hw, ho.yd, ho.int⟩, rfl, ?_, hgr⟩
  · simp only [ProfitOracleQ.cutAtYd, hq', Res.ok_bind, hz, hdot]
  · rw [add_sub_cancel_right]; exact hm

/-- **C49** (partial) Every query of `ProfitOracleQ` at `y`, first attempt or retry, whatever its history, with `γ ≥ 0`:
* no panic; the state keeps holding a log-integer point;
* either the answer is a correct rejection at `y` itself, or the returned point `x0` is the logarithm of a vector of
  positive integers: the one nearest to `exp y` on a first attempt, the same point as before on a retry;
* an improving answer always returns such an `x0`, which is feasible, has profit `γ' ≥ γ`;
* the cut *at `x0`* obtained by undoing the code's shift, `gᵀ(z - x0) + (beta - gᵀ(x0 - y)) ≤ 0`, keeps every feasible
  point with profit at least `γ'`; hence the returned cut at `y` is valid if `gᵀ(x0 - y) ≤ 0`.
Missing (and false, see `C49_shift_sign_wrong`): that the returned cut `gᵀ(z - y) + beta ≤ 0` is valid. -/
theorem C49_discrete_partial (h : d.Pos) (o : ProfitOracleQ ℝ) (ho : o.For d) (y : Arr ℝ) (hy : y.IsVecShape 2)
    {γ : ℝ} (hγ : 0 ≤ γ) (retry : Bool) :
    ∃ g beta shrunk x0 more γ' o',
      ProfitOracleQ.oracle.assess o y γ retry = .ok (((g, ⟨beta⟩), shrunk, x0, more), γ', o') ∧ o'.For d ∧
      x0.IsVecShape 2 ∧ g.IsVecShape 2 ∧ γ ≤ γ' ∧
      (more = !retry) ∧
      (retry = true → x0 = o.yd) ∧
      ((shrunk = false ∧ x0 = y ∧ retry = false ∧ γ' = γ ∧
          MaxAnswer d.feasible d.profit (y.toVec 2) γ g beta false γ) ∨
        (IsLogInt (x0.toVec 2) ∧ (retry = false → IsLogRound (y.toVec 2) (x0.toVec 2)) ∧ o'.yd = x0 ∧
          (shrunk = true ↔ x0.toVec 2 ∈ d.feasible ∧ γ ≤ d.profit (x0.toVec 2)) ∧
          γ' = (if shrunk then d.profit (x0.toVec 2) else γ) ∧
          (∀ z ∈ d.feasible, γ' ≤ d.profit z →
            g.toVec 2 ⬝ᵥ (z - x0.toVec 2) + (beta - g.toVec 2 ⬝ᵥ (x0.toVec 2 - y.toVec 2)) ≤ 0) ∧
          (g.toVec 2 ⬝ᵥ (x0.toVec 2 - y.toVec 2) ≤ 0 → ∀ z ∈ d.feasible, γ' ≤ d.profit z →
            g.toVec 2 ⬝ᵥ (z - y.toVec 2) + beta ≤ 0))) := by
  have cut : ∀ o : ProfitOracleQ ℝ, o.For d → ∃ g beta shrunk γ' o',
      o.cutAtYd y γ retry = .ok (((g, ⟨beta⟩), shrunk, o.yd, !retry), γ', o') ∧ o'.For d ∧
      g.IsVecShape 2 ∧ γ ≤ γ' ∧ o'.yd = o.yd ∧
      (shrunk = true ↔ o.yd.toVec 2 ∈ d.feasible ∧ γ ≤ d.profit (o.yd.toVec 2)) ∧
      γ' = (if shrunk then d.profit (o.yd.toVec 2) else γ) ∧
      (∀ z ∈ d.feasible, γ' ≤ d.profit z →
        g.toVec 2 ⬝ᵥ (z - o.yd.toVec 2) + (beta - g.toVec 2 ⬝ᵥ (o.yd.toVec 2 - y.toVec 2)) ≤ 0) ∧
      (g.toVec 2 ⬝ᵥ (o.yd.toVec 2 - y.toVec 2) ≤ 0 → ∀ z ∈ d.feasible, γ' ≤ d.profit z →
        g.toVec 2 ⬝ᵥ (z - y.toVec 2) + beta ≤ 0) := by
    intro o ho
    obtain ⟨g, b, s, γ', o', h1, h2, h3, hm, -⟩ := cutAtYd_spec h o ho hy hγ retry
    have hkeep : ∀ z ∈ d.feasible, γ' ≤ d.profit z →
        g.toVec 2 ⬝ᵥ (z - o.yd.toVec 2) + (b - g.toVec 2 ⬝ᵥ (o.yd.toVec 2 - y.toVec 2)) ≤ 0 := by
      intro z hz hp
      have hv := hm.value
      cases s with
      | true =>
        have := hm.accepted rfl
        have := this.2 z hz hp
        have := (hm.accepted rfl).1
        linarith
      | false =>
        simp only [Bool.false_eq_true, if_false] at hv
        exact (hm.rejected rfl).2 z hz (by linarith)
    refine ⟨g, b, s, γ', o', h1, h2, hm.shape, hm.mono, h3, hm.improves, hm.value, hkeep, fun hle z hz hp => ?_⟩
    have := hkeep z hz hp
    have e : g.toVec 2 ⬝ᵥ (z - y.toVec 2) =
        g.toVec 2 ⬝ᵥ (z - o.yd.toVec 2) + g.toVec 2 ⬝ᵥ (o.yd.toVec 2 - y.toVec 2) := by
      rw [← dotProduct_add]; congr 1; simp
    linarith
  have hyv : RV y (y.toVec 2) := ⟨hy, rfl⟩
  cases hret : retry with
  | true =>
    subst hret
    obtain ⟨g, b, s, γ', o', h1, h2, h3, h4, h5, h6, h7, h8, h9⟩ := cut o ho
    refine ⟨g, b, s, o.yd, false, γ', o', ?_, h2, ho.yd, h3, h4, rfl, fun _ => rfl, Or.inr ⟨ho.int, by simp, h5, h6, h7, h8, h9⟩⟩
    simp only [ProfitOracleQ.oracle, ProfitOracleQ.assess]
    exact h1
  | false =>
    subst hret
    obtain ⟨r, w, hr, hw, hnone, hsome⟩ := profit_feas h ho.inner hyv hγ
    cases r with
    | some p =>
      obtain ⟨g, b⟩ := p
      obtain ⟨hb, hg⟩ := hsome g b rfl
      have hgs : g.IsVecShape 2 := by rcases hg with ⟨-, hg⟩ | ⟨-, hg⟩ <;> exact hg.1
      have hg' : (y.toVec 2 0 - Real.log d.limit = b ∧ g.toVec 2 = ![1, 0]) ∨
          (d.slack γ (y.toVec 2) = b ∧ g.toVec 2 = d.grad γ (y.toVec 2)) :=
        hg.imp (fun h => ⟨h.1, h.2.2⟩) (fun h => ⟨h.1, h.2.2⟩)
      refine ⟨g, b, false, y, true, γ, { o with omega := w }, ?_, ⟨hw, ho.yd, ho.int⟩, hy, hgs, le_rfl, rfl, by simp,
        Or.inl ⟨rfl, rfl, rfl, rfl, ⟨hgs, ?_, rfl, fun _ => ⟨hb, profit_cut_valid h hγ hg'⟩, by simp⟩⟩⟩
      · simp only [ProfitOracleQ.oracle, ProfitOracleQ.assess, Bool.not_false, if_true, hr, Res.ok_bind]
      · have := profit_not_both h hγ hb hg'
        simpa using this
    | none =>
      obtain ⟨z, hz, hzv⟩ := profitRound_spec hyv
      have ho' : (ProfitOracleQ.mk w z).For d := ⟨hw, hzv.1, by rw [hzv.2]; exact isLogInt_round _⟩
      obtain ⟨g, b, s, γ', o', h1, h2, h3, h4, h5, h6, h7, h8, h9⟩ := cut ⟨w, z⟩ ho'
      refine ⟨g, b, s, z, true, γ', o', ?_, h2, hzv.1, h3, h4, rfl, by simp,
        Or.inr ⟨ho'.int, fun _ => by rw [hzv.2]; exact isLogRound_round _, h5, h6, h7, h8, h9⟩⟩
      simp only [ProfitOracleQ.oracle, ProfitOracleQ.assess, Bool.not_false, if_true, hr, Res.ok_bind, hz]
      exact h1

/-- **C49** (start) a fresh `ProfitOracleQ` -/
theorem C49_new_partial (a v : Arr ℝ) (ha : RV a d.elas) (hv : RV v d.cost) :
    (ProfitOracleQ.new d.price d.scale d.limit a v).For d := by
  refine ⟨C48_profit_new a v ha hv, pair_shape 0 0, fun _ => 1, fun _ => le_rfl, fun i => ?_⟩
  show (Arr.ofList [(0 : ℝ), 0]).toVec 2 i = _
  rw [pair_toVec]
  fin_cases i <;> simp

/-- revenue `4 x₁`, input prices 1, limit 10 -/
def badData : ProfitData := ⟨4, 1, 10, ![0, 1], ![1, 1]⟩

theorem badData_pos : badData.Pos :=
  ⟨by norm_num [badData], by norm_num [badData], by norm_num [badData], fun i => by fin_cases i <;> norm_num [badData]⟩

theorem badData_profit (s t : ℝ) : badData.profit ![s, t] = 3 * Real.exp t - Real.exp s := by
  rw [ProfitData.profit, ProfitData.revenue_eq, ProfitData.expense]
  simp [badData, dotProduct, Fin.sum_univ_two]
  ring

/-- **C49** The code shifts `beta` by `gᵀ(yd - y)`; re-expressing the cut at `y` needs `gᵀ(y - yd)`.  Witness: a fresh
oracle, first attempt at `y = (0, ln 1.45)` with `γ = 0`, proposes the integer inputs `(1, 1)` with profit 2, but the
returned cut excludes the integer inputs `(1, 2)`, which are feasible with profit 5. -/
theorem C49_shift_sign_wrong :
    ∃ (d : ProfitData) (o : ProfitOracleQ ℝ) (y : Arr ℝ), d.Pos ∧
      o = ProfitOracleQ.new d.price d.scale d.limit (Arr.ofList [0, 1]) (Arr.ofList [1, 1]) ∧ o.For d ∧
      y.IsVecShape 2 ∧ ∃ g beta x0 o',
        ProfitOracleQ.oracle.assess o y 0 false = .ok (((g, ⟨beta⟩), true, x0, true), 2, o') ∧
        x0.toVec 2 = ![Real.log 1, Real.log 1] ∧ d.profit (x0.toVec 2) = 2 ∧
        ∃ z, z = ![Real.log 1, Real.log 2] ∧ z ∈ d.feasible ∧ d.profit z = 5 ∧
          0 < g.toVec 2 ⬝ᵥ (z - y.toVec 2) + beta := by
  have ha : RV (Arr.ofList [0, 1]) badData.elas := rv_pair 0 1
  have hc : RV (Arr.ofList [1, 1]) badData.cost := rv_pair 1 1
  have hFor := C49_new_partial (d := badData) _ _ ha hc
  set o := ProfitOracleQ.new badData.price badData.scale badData.limit (Arr.ofList [0, 1]) (Arr.ofList [1, 1]) with ho
  set t : ℝ := Real.log (29 / 20) with ht
  have hexp : Real.exp t = 29 / 20 := Real.exp_log (by norm_num)
  have hyv : RV (Arr.ofList [0, t]) ![0, t] := rv_pair 0 t
  obtain ⟨r, w, hr, hw, hnone, hsome⟩ := profit_feas badData_pos hFor.inner hyv le_rfl
  have hfeas : ∀ s : ℝ, ![0, s] ∈ badData.feasible := by
    intro s
    show Real.exp 0 ≤ 10
    rw [Real.exp_zero]; norm_num
  cases r with
  | some p =>
    exfalso
    obtain ⟨g, b⟩ := p
    obtain ⟨hb, hg⟩ := hsome g b rfl
    refine profit_not_both badData_pos le_rfl hb (hg.imp (fun h => ⟨h.1, h.2.2⟩) (fun h => ⟨h.1, h.2.2⟩))
      ⟨hfeas t, ?_⟩
    rw [badData_profit, hexp, Real.exp_zero]; norm_num
  | none =>
    obtain ⟨yd, hyd, hydv⟩ := profitRound_spec hyv
    have hr0 : roundPos (Real.exp 0) = 1 := by
      rw [Real.exp_zero, roundPos]
      have : ⌊(1 : ℝ) + 1 / 2⌋₊ = 1 := by rw [Nat.floor_eq_iff (by norm_num)]; norm_num
      rw [this]; rfl
    have hr1 : roundPos (Real.exp t) = 1 := by
      rw [hexp, roundPos]
      have : ⌊(29 / 20 : ℝ) + 1 / 2⌋₊ = 1 := by rw [Nat.floor_eq_iff (by norm_num)]; norm_num
      rw [this]; rfl
    have hyd0 : yd.toVec 2 = ![0, 0] := by
      rw [hydv.2]
      funext i
      fin_cases i
      · show Real.log (roundPos (Real.exp 0)) = 0
        rw [hr0]; simp
      · show Real.log (roundPos (Real.exp t)) = 0
        rw [hr1]; simp
    have ho' : (ProfitOracleQ.mk w yd).For badData := ⟨hw, hydv.1, by rw [hydv.2]; exact isLogInt_round _⟩
    obtain ⟨g, b, s, γ', o', h1, h2, h3, hm, hgr⟩ := cutAtYd_spec badData_pos ⟨w, yd⟩ ho' (pair_shape 0 t)
      (le_refl (0 : ℝ)) false
    rw [show (ProfitOracleQ.mk w yd).yd = yd from rfl] at h1 h3 hm hgr
    rw [hyd0] at hm hgr
    have hp0 : badData.profit ![0, 0] = 2 := by rw [badData_profit, Real.exp_zero]; norm_num
    have hs : s = true := hm.improves.2 ⟨hfeas 0, by rw [hp0]; norm_num⟩
    subst hs
    have hγ : γ' = 2 := by have := hm.value; simpa [hp0] using this
    subst hγ
    have hb := (hm.accepted rfl).1
    have hg := hgr rfl
    have hge : badData.grad 2 ![0, 0] = ![1 / 4, -(3 / 4)] := by
      funext i
      fin_cases i <;> simp [ProfitData.grad, badData, ProfitData.expense] <;> norm_num
    rw [hge] at hg
    refine ⟨badData, o, Arr.ofList [0, t], badData_pos, rfl, hFor, pair_shape 0 t, g, b, yd, o', ?_, ?_, ?_, _, rfl, ?_, ?_, ?_⟩
    · simp only [ProfitOracleQ.oracle, ProfitOracleQ.assess, Bool.not_false, if_true, hr, Res.ok_bind, hyd]
      exact h1
    · rw [hyd0, Real.log_one]
    · rw [hyd0, hp0]
    · rw [Real.log_one]; exact hfeas _
    · rw [Real.log_one, badData_profit, Real.exp_zero, Real.exp_log (by norm_num)]; norm_num
    · rw [hg, pair_toVec, pair_dot] at hb
      rw [hg, pair_toVec, pair_dot]
      simp only [Pi.sub_apply, cons_val_zero, cons_val_one, Real.log_one] at hb ⊢
      have hlog : Real.log 2 < 2 * t := by
        rw [ht, show (2 : ℝ) * Real.log (29 / 20) = Real.log ((29 / 20) ^ 2) by rw [Real.log_pow]; norm_num]
        exact Real.log_lt_log (by norm_num) (by norm_num)
      linarith

end Ellalgo

import Verif.Props.Profit64
import Verif.Props.DiscreteRuns

/-! # C128: constructors, and the discrete profit oracle, in IEEE `f64` -/

namespace Ellalgo
open Matrix
variable {d : ProfitData}

theorem normal_rep {a : B64} (h : a.Finite) (hp : (2 : ℝ) ^ (-1022 : ℤ) ≤ a.val) : rnd53 a.val = a.val := by
  rw [← rnd64_normal (le_trans hp (le_abs_self _)), B64.rep_val h]

theorem B64.val_lt {a : B64} (h : a.Finite) : a.val ≤ (2 : ℝ) ^ (1024 : ℤ) := by
  cases a with
  | nan => exact h.elim
  | inf s => exact h.elim
  | zero s => exact le_of_lt (show (0 : ℝ) < _ by positivity)
  | num s => exact (le_abs_self _).trans s.lt.le

/-- the logarithm of a normal positive number -/
theorem B64.ln_is {a : B64} (h : a.Finite) (hp : (2 : ℝ) ^ (-1022 : ℤ) ≤ a.val) : (Scalar.ln a).Equals (rnd53 (Real.log a.val)) := by
  refine B64.ln_val h (lt_of_lt_of_le (by positivity) hp) (normal_rep h hp) ?_
  have := log_abs_le (b := 1024) (x := a.val) (le_trans (zpow_le_zpow_right₀ (by norm_num) (by norm_num)) hp) (by exact_mod_cast B64.val_lt h)
  refine this.trans ?_
  have h1 : ((1024 : ℕ) : ℝ) = (2 : ℝ) ^ (10 : ℤ) := by norm_num
  rw [h1]
  exact zpow_le_zpow_right₀ (by norm_num) (by norm_num)

/-- **C128** (start)  `ProfitOracle::new` in `f64`, given finite numbers of ordinary size, builds an oracle for these data. -/
theorem C128_profit_new {price scale limit : B64} {a v : Arr B64} (hp : price.Finite) (hs : scale.Finite) (hl : limit.Finite)
    (ha : a.AllFinite) (hv : v.AllFinite) (has : a.IsVecShape 2) (hvs : v.IsVecShape 2)
    (hd : (⟨price.val, scale.val, limit.val, a.vec64 2, v.vec64 2⟩ : ProfitData).Tame) (hl1 : (2 : ℝ) ^ (-1022 : ℤ) ≤ limit.val) :
    (ProfitOracle.new price scale limit a v).For64 ⟨price.val, scale.val, limit.val, a.vec64 2, v.vec64 2⟩ := by
  have hps : (price * scale).Finite ∧ (price * scale).val = rnd53 (price.val * scale.val) := by
    have h0 : (0 : ℝ) < price.val * scale.val := lt_of_lt_of_le (by positivity) hd.scale.1
    refine (C99_normal_range price scale hp hs).2.2.1 (.inr ?_) (noOver_pow (b := 64) ?_ (by norm_num))
    · rw [abs_of_pos h0]
      exact le_trans (zpow_le_zpow_right₀ (by norm_num) (by norm_num)) hd.scale.1
    · rw [abs_of_pos h0]; exact hd.scale.2
  have h1 : (2 : ℝ) ^ (-1022 : ℤ) ≤ (price * scale).val := by
    rw [hps.2]
    have := rnd53_mono _ _ hd.scale.1
    rw [rnd53_pow] at this
    exact le_trans (zpow_le_zpow_right₀ (by norm_num) (by norm_num)) this
  refine ⟨⟨le_refl _, by show (-1 : ℤ) < 2; decide, hvs, has⟩, ⟨?_, B64.ln_is hl hl1, fun i => ⟨allFinite_vec hv i, rfl⟩⟩,
    fun i => ⟨allFinite_vec ha i, rfl⟩⟩
  have := B64.ln_is hps.1 h1
  rw [hps.2] at this
  exact this

/-- **C128** (start)  and `ProfitOracleQ::new` likewise, with the point `(0, 0)`: one unit of each input -/
theorem C128_discrete_new {price scale limit : B64} {a v : Arr B64} (hp : price.Finite) (hs : scale.Finite) (hl : limit.Finite)
    (ha : a.AllFinite) (hv : v.AllFinite) (has : a.IsVecShape 2) (hvs : v.IsVecShape 2)
    (hd : (⟨price.val, scale.val, limit.val, a.vec64 2, v.vec64 2⟩ : ProfitData).Tame) (hl1 : (2 : ℝ) ^ (-1022 : ℤ) ≤ limit.val) :
    (ProfitOracleQ.new price scale limit a v).For64 ⟨price.val, scale.val, limit.val, a.vec64 2, v.vec64 2⟩ := by
  refine ⟨C128_profit_new hp hs hl ha hv has hvs hd hl1, ⟨rfl, rfl, rfl⟩, ?_⟩
  have h0 : (0 : B64).LogInt := fun _ => ⟨1, le_rfl, by
    rw [Nat.cast_one, Real.log_one, rnd53_zero]; exact Same.zero.2⟩
  intro i hi
  obtain rfl | rfl : i = 0 ∨ i = 1 := by omega
  · exact h0
  · exact h0

/-! ### the discrete oracle -/

/-- what `profitRound` computes, in any arithmetic: `ln` of the rounded `exp`, with 0 replaced by 1 -/
theorem profitRound_any {α : Type} [Scalar α] {y : Arr α} (hy : y.IsVecShape 2) :
    ∃ z, profitRound y = .ok z ∧ IsVec z 2 (fun i => Scalar.ln
      (if Scalar.beq (Scalar.round (Scalar.exp (y.vec i))) 0 then 1 else Scalar.round (Scalar.exp (y.vec i)))) := by
  obtain ⟨f, hf⟩ : ∃ f : α → α, f = fun v => Scalar.round (Scalar.exp v) := ⟨_, rfl⟩
  have hx := hy.isVec.map f
  have h0 : (y.map f).idx 0 = .ok (f (y.vec 0)) := hx.idx (by norm_num)
  obtain ⟨x1, hx1, hx1v⟩ : ∃ x1, (if Scalar.beq (f (y.vec 0)) 0 then (y.map f).setIdx 0 1 else .ok (y.map f)) = .ok x1 ∧
      IsVec x1 2 (fun i => if i = 0 then (if Scalar.beq (f (y.vec 0)) 0 then 1 else f (y.vec 0)) else f (y.vec i)) := by
    split
    · rename_i c
      obtain ⟨z, e1, e2⟩ := hx.setIdx (i := 0) (by norm_num) 1
      refine ⟨z, e1, e2.congr fun i _ => ?_⟩
      by_cases hi : i = 0
      · subst hi; simp [upd1]
      · simp [upd1, hi]
    · rename_i c
      refine ⟨_, rfl, hx.congr fun i _ => ?_⟩
      by_cases hi : i = 0
      · subst hi; simp
      · simp [hi]
  have h1 : x1.idx 1 = .ok (f (y.vec 1)) := by rw [hx1v.idx (by norm_num)]; rfl
  obtain ⟨x2, hx2, hx2v⟩ : ∃ x2, (if Scalar.beq (f (y.vec 1)) 0 then x1.setIdx 1 1 else .ok x1) = .ok x2 ∧
      IsVec x2 2 (fun i => if Scalar.beq (f (y.vec i)) 0 then 1 else f (y.vec i)) := by
    split
    · rename_i c
      obtain ⟨z, e1, e2⟩ := hx1v.setIdx (i := 1) (by norm_num) 1
      refine ⟨z, e1, e2.congr fun i hi => ?_⟩
      obtain rfl | rfl : i = 0 ∨ i = 1 := by omega
      · simp [upd1]
      · simp [upd1, c]
    · rename_i c
      refine ⟨_, rfl, hx1v.congr fun i hi => ?_⟩
      obtain rfl | rfl : i = 0 ∨ i = 1 := by omega
      · simp
      · simp [c]
  have hfin := hx2v.map Scalar.ln
  refine ⟨x2.map Scalar.ln, ?_, ?_⟩
  · have hx' : (y.map fun v => Scalar.round (Scalar.exp v)) = y.map f := by rw [hf]
    simp only [profitRound, hx', h0, Res.ok_bind]
    have hlast : (if Scalar.beq (f (y.vec 1)) 0 = true then do
          let x ← x1.setIdx 1 1
          Res.ok (Arr.map Scalar.ln x)
        else Res.ok (Arr.map Scalar.ln x1)) = Res.ok (Arr.map Scalar.ln x2) := by
      split at hx2
      · rename_i c
        rw [if_pos c, hx2, Res.ok_bind]
      · rename_i c
        rw [if_neg c]
        obtain rfl : x1 = x2 := by simpa using hx2
        rfl
    split at hx1
    · rename_i c
      rw [if_pos c, hx1, Res.ok_bind, h1, Res.ok_bind]
      exact hlast
    · rename_i c
      obtain rfl : y.map f = x1 := by simpa using hx1
      rw [if_neg c, h1, Res.ok_bind]
      exact hlast
  · rw [hf] at hfin
    exact hfin

/-- rounding an integer to 53 bits gives an integer -/
theorem rnd53_int (z : ℤ) : ∃ k : ℤ, rnd53 z = k := by
  rcases le_or_gt |z| (2 ^ 53) with h | h
  · refine ⟨z, ?_⟩
    have := rnd53_rep z 0 h
    simpa using this
  · have hz : (z : ℝ) ≠ 0 := by
      intro h0
      rw [Int.cast_eq_zero] at h0
      rw [h0] at h
      norm_num at h
    have h2 := (expo53_spec hz).2
    have he : 0 ≤ expo53 (z : ℝ) := by
      by_contra hc
      have h3 : |(z : ℝ)| < (2 : ℝ) ^ (53 : ℤ) := h2.trans_le (zpow_le_zpow_right₀ (by norm_num) (by omega))
      have h4 : ((2 ^ 53 : ℤ) : ℝ) < ((|z| : ℤ) : ℝ) := by exact_mod_cast h
      rw [Int.cast_abs] at h4
      have h5 : ((2 ^ 53 : ℤ) : ℝ) = (2 : ℝ) ^ (53 : ℤ) := by norm_num
      rw [h5] at h4
      exact lt_asymm h3 h4
    obtain ⟨j, hj⟩ := Int.eq_ofNat_of_zero_le he
    refine ⟨roundEven ((z : ℝ) / (2 : ℝ) ^ expo53 (z : ℝ)) * 2 ^ j, ?_⟩
    unfold rnd53
    rw [hj]
    push_cast
    rfl

theorem ln_one_logInt : (Scalar.ln (1 : B64)).LogInt := by
  intro _
  have h1 : (1 : B64).Finite ∧ (1 : B64).val = 1 := ⟨Same.one.1, Same.one.2⟩
  have h2 := B64.ln_is h1.1 (by rw [h1.2]; exact zpow_le_one_of_nonpos₀ (by norm_num) (by norm_num))
  refine ⟨1, le_rfl, ?_⟩
  rw [h2.2, h1.2, Nat.cast_one]

theorem beq_zero_sign (s : Bool) : Scalar.beq (B64.zero s) 0 = true := decide_eq_true rfl

/-- the discrete point in `f64`: an entry that is a finite number is the rounded logarithm of a positive integer -/
theorem round_logInt (v : B64) : (Scalar.ln (if Scalar.beq (Scalar.round (Scalar.exp v)) 0 then 1 else Scalar.round (Scalar.exp v))).LogInt := by
  have key : ∀ e : B64, (∀ a, e = .num a → 0 ≤ a.x) →
      (Scalar.ln (if Scalar.beq (Scalar.round e) 0 then 1 else Scalar.round e)).LogInt := by
    intro e he
    cases e with
    | nan => intro h; exact h.elim
    | inf s => cases s <;> (intro h; exact h.elim)
    | zero s =>
      have : Scalar.round (B64.zero s) = B64.zero s := rfl
      rw [this, if_pos (beq_zero_sign s)]
      exact ln_one_logInt
    | num a =>
      have ha := he a rfl
      have e1 : Scalar.round (B64.num a) = B64.ofReal (B64.num a).sgn (Scalar.round a.x) := rfl
      have e2 : Scalar.round a.x = ((⌊a.x + 1 / 2⌋ : ℤ) : ℝ) := if_pos ha
      rw [e1, e2]
      have hz : 0 ≤ ⌊a.x + 1 / 2⌋ := Int.floor_nonneg.2 (by linarith)
      rcases B64.ofReal_cases (B64.num a).sgn ((⌊a.x + 1 / 2⌋ : ℤ) : ℝ) with ⟨-, h2⟩ | ⟨h1, -, x, hx, h2⟩ | ⟨-, h2⟩
      · rw [h2, if_pos (beq_zero_sign _)]
        exact ln_one_logInt
      · have hz1 : 1 ≤ ⌊a.x + 1 / 2⌋ := by
          by_contra hc
          have h0 : ⌊a.x + 1 / 2⌋ = 0 := by omega
          rw [h0, Int.cast_zero, rnd64_zero] at h1
          exact h1 rfl
        have hz2 : (1 : ℝ) ≤ ((⌊a.x + 1 / 2⌋ : ℤ) : ℝ) := by exact_mod_cast hz1
        have hge : (1 : ℝ) ≤ x.x := by
          have := rnd64_mono hz2
          rwa [rnd64_one, ← hx] at this
        have hnorm : rnd64 ((⌊a.x + 1 / 2⌋ : ℤ) : ℝ) = rnd53 ((⌊a.x + 1 / 2⌋ : ℤ) : ℝ) := rnd64_normal (by
          rw [abs_of_nonneg (by linarith)]
          exact le_trans (zpow_le_one_of_nonpos₀ (by norm_num) (by norm_num)) hz2)
        obtain ⟨k, hk⟩ := rnd53_int ⌊a.x + 1 / 2⌋
        have hxk : x.x = k := by rw [hx, hnorm, hk]
        have hb : Scalar.beq (B64.num x) 0 = false := decide_eq_false (by
          show ¬ x.x = 0
          linarith)
        rw [h2, hb]
        simp only [Bool.false_eq_true, if_false]
        intro _
        have hl := B64.ln_is (a := B64.num x) trivial (le_trans (zpow_le_one_of_nonpos₀ (by norm_num) (by norm_num)) hge)
        have hk1 : 1 ≤ k := by rw [hxk] at hge; exact_mod_cast hge
        refine ⟨k.toNat, by omega, ?_⟩
        rw [hl.2]
        have hv : (B64.num x).val = (k.toNat : ℝ) := by
          show x.x = _
          rw [hxk]
          have : ((k.toNat : ℤ) : ℝ) = (k : ℝ) := by rw [Int.toNat_of_nonneg (by omega)]
          exact_mod_cast this.symm
        rw [hv]
      · rw [h2, decide_eq_false (by push Not; exact_mod_cast hz)]
        intro h
        exact h.elim
  refine key _ ?_
  cases v with
  | nan => intro a h; exact absurd h (by simp [Scalar.exp, B64.exp])
  | inf s => cases s <;> (intro a h; exact absurd h (by simp [Scalar.exp, B64.exp]))
  | zero s =>
    intro a h
    have h' : B64.ofReal false (Real.exp 0) = .num a := h
    rcases B64.ofReal_cases false (Real.exp 0) with ⟨-, h2⟩ | ⟨-, -, x, hx, h2⟩ | ⟨-, h2⟩ <;> rw [h2] at h'
    · cases h'
    · obtain rfl : x = a := by simpa using h'
      rw [hx, ← rnd64_zero]; exact rnd64_mono (Real.exp_pos _).le
    · cases h'
  | num t =>
    intro a h
    have h' : B64.ofReal false (Real.exp t.x) = .num a := h
    rcases B64.ofReal_cases false (Real.exp t.x) with ⟨-, h2⟩ | ⟨-, -, x, hx, h2⟩ | ⟨-, h2⟩ <;> rw [h2] at h'
    · cases h'
    · obtain rfl : x = a := by simpa using h'
      rw [hx, ← rnd64_zero]; exact rnd64_mono (Real.exp_pos _).le
    · cases h'

/-- **C128** (discrete runs)  `cutting_plane_optim_q` in IEEE-754 `f64` with the discrete profit oracle, over any search space that keeps its
dimension, whatever happens in it: the run ends without a panic, and without a solution `γ` is unchanged.  A returned point of finite numbers is the
rounded logarithm of a vector of positive integers and obeys the stored limit; if it is of ordinary size, the reported `γ'` is finite and is the true
profit of this point up to `profitErr`. -/
theorem C128_discrete_run {S : Type} {sp : Space S (Arr B64) (SingleCut B64) B64} {Q : S → Prop} (hsp : sp.Steady 2 Q)
    (hd : d.Tame) (o : ProfitOracleQ B64) (ho : o.For64 d) {s : S} (hs : Q s) (γ : B64) (opts : Options B64) :
    ∃ r k γ' o' s', cuttingPlaneOptimQ ProfitOracleQ.oracle sp o s γ opts = .ok ((r, k), γ', o', s') ∧ (r = none → γ' = γ) ∧
      ∀ y, r = some y → y.IsVecShape 2 ∧ (y.AllFinite → IsFlLogInt bin53 (y.vec64 2) ∧ y.vec64 2 0 ≤ rnd53 (Real.log d.limit) ∧
        (d.TameAt (y.vec64 2) →
          γ'.Finite ∧ |γ'.val - d.profit (y.vec64 2)| ≤ d.profitErr ((2 : ℝ) ^ (-53 : ℤ)) (y.vec64 2))) := by
  have cut : ∀ (w : ProfitOracleQ B64) (x : Arr B64) (g : B64) (retry : Bool), w.For64 d → x.IsVecShape 2 →
      ∃ gr beta sh g' w', w.cutAtYd x g retry = .ok (((gr, ⟨beta⟩), sh, w.yd, !retry), g', w') ∧ w'.For64 d ∧ gr.IsVecShape 2 ∧
        (sh = true → Scalar.gt (w.yd.vec 0 - w.omega.logK) 0 = false ∧ g' = w.omega.profitOf w.yd) ∧ (sh = false → g' = g) := by
    intro w x g retry hw hx
    obtain ⟨gr, b, sh, g', w', hq, hw', hsd, hg, h5, h6⟩ := C128_profit_query w.omega hw.inner.shaped w.yd hw.yd g
    obtain ⟨z, hz, hzv⟩ := hw.yd.isVec.zipWith hx.isVec (· - ·)
    have hz' : w.yd.sub x = .ok z := hz
    have hdot := dot_spec hg.isVec hzv
    have hq' : w.omega.assess w.yd g = .ok (((gr, ⟨b⟩), sh), g', w') := hq
    exact ⟨gr, _, sh, g', { w with omega := w' }, by simp only [ProfitOracleQ.cutAtYd, hq', Res.ok_bind, hz', hdot]; rfl,
      ⟨hw.inner.step hw' hsd, hw.yd, hw.int⟩, hg, fun h => ⟨(h5 h).1, (h5 h).2.2.1⟩, fun h => (h6 h).1⟩
  have query : ∀ (w : ProfitOracleQ B64) (x : Arr B64) (g : B64) (retry : Bool), w.For64 d → x.IsVecShape 2 →
      ∃ gr beta sh x0 more g' w', ProfitOracleQ.oracle.assess w x g retry = .ok (((gr, ⟨beta⟩), sh, x0, more), g', w') ∧
        w'.For64 d ∧ gr.IsVecShape 2 ∧ (sh = false → g' = g) ∧
        (sh = true → ∃ v : ProfitOracleQ B64, v.For64 d ∧ x0 = v.yd ∧ Scalar.gt (v.yd.vec 0 - v.omega.logK) 0 = false ∧
          g' = v.omega.profitOf v.yd) := by
    intro w x g retry hw hx
    cases retry with
    | true =>
      obtain ⟨gr, b, sh, g', w', h1, h2, h3, h4, h5⟩ := cut w x g true hw hx
      exact ⟨gr, b, sh, w.yd, false, g', w', h1, h2, h3, h5, fun h => ⟨w, hw, rfl, h4 h⟩⟩
    | false =>
      obtain ⟨r, w1, hr, hw1, hsd, hnone, hsome⟩ := profit_feas_any hw.inner.shaped hx g
      cases r with
      | some p =>
        obtain ⟨gr, b⟩ := p
        obtain ⟨-, hg, -⟩ := hsome gr b rfl
        refine ⟨gr, b, false, x, true, g, { w with omega := w1 }, ?_, ⟨hw.inner.step hw1 hsd, hw.yd, hw.int⟩, hg, fun _ => rfl, by simp⟩
        simp only [ProfitOracleQ.oracle, ProfitOracleQ.assess, Bool.not_false, if_true, hr, Res.ok_bind]
      | none =>
        obtain ⟨z, hz, hzv⟩ := profitRound_any hx
        have hv : (⟨w1, z⟩ : ProfitOracleQ B64).For64 d := ⟨hw.inner.step hw1 hsd, hzv.shape, fun i hi => by
          show (z.vec i).LogInt
          rw [hzv.vec hi]; exact round_logInt _⟩
        obtain ⟨gr, b, sh, g', w', h1, h2, h3, h4, h5⟩ := cut ⟨w1, z⟩ x g false hv hx
        refine ⟨gr, b, sh, z, true, g', w', ?_, h2, h3, h5, fun h => ⟨_, hv, rfl, h4 h⟩⟩
        simp only [ProfitOracleQ.oracle, ProfitOracleQ.assess, Bool.not_false, if_true, hr, Res.ok_bind, hz]
        exact h1
  obtain ⟨r, k, γ', w', s', h1, -, h3, h4⟩ := optimQ_accepted hsp (I := fun w _ => w.For64 d)
    (orc := ProfitOracleQ.oracle) (w := o) (s := s) (g := γ) (by
      intro w x g retry hw hx
      obtain ⟨gr, beta, sh, x0, more, g', w', hq, hw', hg, e, -⟩ := query w x g retry hw hx
      exact ⟨(gr, ⟨beta⟩), sh, x0, more, g', w', hq, hw', e, hg⟩) opts ho hs
  refine ⟨r, k, γ', w', s', h1, h3, ?_⟩
  intro x hx
  obtain ⟨w1, xc, g1, retry, c, more, w2, hw1, hxc, hq⟩ := h4 x hx
  obtain ⟨gr, beta, sh, x0, more', g', w3, hq', -, -, -, e⟩ := query w1 xc g1 retry hw1 hxc
  rw [hq] at hq'
  simp only [Res.ok.injEq, Prod.mk.injEq] at hq'
  obtain ⟨⟨-, rfl, rfl, -⟩, rfl, -⟩ := hq'
  obtain ⟨v, hv, rfl, t1, rfl⟩ := e rfl
  refine ⟨hv.yd, fun hf => ⟨?_, ?_, fun ht => C128_profit_value hv.inner hd hf ht⟩⟩
  · choose k hk1 hk2 using fun i : Fin 2 => hv.int i i.2 (allFinite_vec hf i)
    exact ⟨k, hk1, hk2⟩
  · have := gt_sub_false (allFinite_vec hf 0) hv.inner.stores.limit.1 t1
    rwa [hv.inner.stores.limit.2] at this

end Ellalgo

import Verif.Props.ProfitQProps
import Verif.Props.RoundedProfit
import Verif.Props.RoundedProfitExamples

/-! # Whole runs of `cutting_plane_optim_q` with the discrete profit oracle, in exact (C49) and rounded (C95) arithmetic -/

namespace Ellalgo
open Matrix

section Generic
variable {Ω S T α : Type} [Scalar α]

/-- Over a steady space, a run of `cutting_plane_optim_q` ends, a returned point was proposed and accepted by the oracle, and the
final value is the one the oracle wrote then. -/
theorem optimQ_accepted {orc : OracleOptimQ Ω (Arr α) T α} {sp : Space S (Arr α) T α} {n : Nat} {Q : S → Prop}
    (hsp : sp.Steady n Q) {I : Ω → α → Prop}
    (hI : ∀ w x g retry, I w g → x.IsVecShape n → ∃ c b xq more g' w', orc.assess w x g retry = .ok ((c, b, xq, more), g', w') ∧
      I w' g' ∧ (b = false → g' = g) ∧ c.1.IsVecShape n)
    {w : Ω} {s : S} {g : α} (opts : Options α) (hw : I w g) (hs : Q s) :
    ∃ r k g' w' s', cuttingPlaneOptimQ orc sp w s g opts = .ok ((r, k), g', w', s') ∧ I w' g' ∧ (r = none → g' = g) ∧
      ∀ x, r = some x → ∃ w1 xc g1 retry c more w2, I w1 g1 ∧ xc.IsVecShape n ∧
        orc.assess w1 xc g1 retry = .ok ((c, true, x, more), g', w2) := by
  have key : ∀ (m n0 : Nat) (xb : Option (Arr α)) (retry : Bool) (w : Ω) (s : S) (g1 : α), I w g1 → Q s → (xb = none → g1 = g) →
      (∀ y, xb = some y → ∃ w1 xc g0 retry c more w2, I w1 g0 ∧ xc.IsVecShape n ∧
        orc.assess w1 xc g0 retry = .ok ((c, true, y, more), g1, w2)) →
      ∃ r k g' w' s', optimQLoop orc sp opts.tolerance m n0 xb retry w s g1 = .ok ((r, k), g', w', s') ∧ I w' g' ∧
        (r = none → g' = g) ∧
        ∀ x, r = some x → ∃ w1 xc g1 retry c more w2, I w1 g1 ∧ xc.IsVecShape n ∧
          orc.assess w1 xc g1 retry = .ok ((c, true, x, more), g', w2) := by
    intro m
    induction m with
    | zero => exact fun n0 xb retry w s g1 hw hs hn hb => ⟨xb, n0, g1, w, s, rfl, hw, hn, hb⟩
    | succ m ih =>
      intro n0 xb retry w s g1 hw hs hn hb
      obtain ⟨⟨gr, t⟩, b, xq, more, g2, w1, hq, hI1, hg, hc⟩ := hI w (sp.xc s) g1 retry hw (hsp.centre s hs)
      have hb1 : ∀ y, (if b = true then some xq else xb) = some y →
          ∃ w1 xc g0 retry c more w2, I w1 g0 ∧ xc.IsVecShape n ∧
            orc.assess w1 xc g0 retry = .ok ((c, true, y, more), g2, w2) := by
        intro y hy
        cases b with
        | true =>
          simp only [if_true, Option.some.injEq] at hy
          exact ⟨w, sp.xc s, g1, retry, _, more, w1, hw, hsp.centre s hs, hy ▸ hq⟩
        | false =>
          rw [hg rfl]
          exact hb y (by simpa using hy)
      have hn1 : (if b = true then some xq else xb) = none → g2 = g := by
        cases b with
        | true => simp
        | false => intro h; rw [hg rfl]; exact hn (by simpa using h)
      obtain ⟨st, s1, hu, hs1⟩ : ∃ st s1, sp.updateQ s (gr, t) = .ok (st, s1) ∧ Q s1 := hsp.step .q s gr t hs hc
      simp only [optimQLoop, hq, Res.ok_bind, hu]
      cases st with
      | noSoln => exact ⟨_, _, _, _, _, rfl, hI1, hn1, hb1⟩
      | noEffect =>
        simp only
        split
        · exact ⟨_, _, _, _, _, rfl, hI1, hn1, hb1⟩
        · split
          · exact ⟨_, _, _, _, _, rfl, hI1, hn1, hb1⟩
          · exact ih _ _ _ _ _ _ hI1 hs1 hn1 hb1
      | success =>
        simp only
        split
        · exact ⟨_, _, _, _, _, rfl, hI1, hn1, hb1⟩
        · exact ih _ _ _ _ _ _ hI1 hs1 hn1 hb1
      | unknown =>
        simp only
        split
        · exact ⟨_, _, _, _, _, rfl, hI1, hn1, hb1⟩
        · exact ih _ _ _ _ _ _ hI1 hs1 hn1 hb1
  exact key _ _ _ _ _ _ _ hw hs (fun _ => rfl) (by simp)

end Generic

variable {d : ProfitData}

/-- **C49** (runs, partial)  `cutting_plane_optim_q` with the discrete profit oracle in exact arithmetic, over any steady search
space, with any options and any starting value `γ ≥ 0`: the run ends without a panic, the value never decreases and without a
solution is unchanged; a returned point is the logarithm of a vector of positive integers, feasible, and its profit is exactly the
final value.  Missing: that no better integer point was cut off (false, see `C49_shift_sign_wrong`). -/
theorem C49_discrete_run_partial {S : Type} {sp : Space S (Arr ℝ) (SingleCut ℝ) ℝ} {Q : S → Prop} (hsp : sp.Steady 2 Q)
    (h : d.Pos) (o : ProfitOracleQ ℝ) (ho : o.For d) {s : S} (hs : Q s) {γ : ℝ} (hγ : 0 ≤ γ) (opts : Options ℝ) :
    ∃ r k γ' o' s', cuttingPlaneOptimQ ProfitOracleQ.oracle sp o s γ opts = .ok ((r, k), γ', o', s') ∧ γ ≤ γ' ∧
      (r = none → γ' = γ) ∧
      ∀ x, r = some x → IsLogInt (x.toVec 2) ∧ x.toVec 2 ∈ d.feasible ∧ d.profit (x.toVec 2) = γ' := by
  obtain ⟨r, k, γ', w', s', h1, ⟨-, h2⟩, h3, h4⟩ := optimQ_accepted hsp (I := fun w g => w.For d ∧ γ ≤ g)
    (orc := ProfitOracleQ.oracle) (w := o) (s := s) (g := γ) (by
      rintro w x g retry ⟨hw, hge⟩ hx
      obtain ⟨gr, beta, sh, x0, more, g', w', hq, hw', -, hsh, hle, -, -, hc⟩ :=
        C49_discrete_partial h w hw x hx (hγ.trans hge) retry
      refine ⟨(gr, ⟨beta⟩), sh, x0, more, g', w', hq, ⟨hw', hge.trans hle⟩, ?_, hsh⟩
      rintro rfl
      rcases hc with ⟨-, -, -, e, -⟩ | ⟨-, -, -, -, e, -⟩
      · exact e
      · simpa using e) opts ⟨ho, le_rfl⟩ hs
  refine ⟨r, k, γ', w', s', h1, h2, h3, ?_⟩
  intro x hx
  obtain ⟨w1, xc, g1, retry, c, more, w2, ⟨hw1, hg1⟩, hxc, hq⟩ := h4 x hx
  obtain ⟨gr, beta, sh, x0, more', g', w3, hq', -, -, -, -, -, -, hc⟩ :=
    C49_discrete_partial h w1 hw1 xc hxc (hγ.trans hg1) retry
  rw [hq] at hq'
  simp only [Res.ok.injEq, Prod.mk.injEq] at hq'
  obtain ⟨⟨-, rfl, rfl, -⟩, rfl, -⟩ := hq'
  rcases hc with ⟨hf, -⟩ | ⟨a, -, -, b, e, -⟩
  · simp at hf
  · exact ⟨a, (b.1 rfl).1, by simpa using e.symm⟩

/-! ### rounded -/

variable {u : ℝ} {R : Rounding u}

theorem profitRound_fl (hu : u ≤ 1 / 8) {y : Arr (Fl R)} (hy : y.IsVecShape 2) :
    ∃ z, profitRound y = .ok z ∧ z.IsVecShape 2 ∧
      z.flVec 2 = fun i => R.rnd (Real.log (roundPos (R.rnd (Real.exp (y.flVec 2 i))))) := by
  set f : Fl R → Fl R := fun v => Scalar.round (Scalar.exp v) with hf
  have hpos : ∀ t : Fl R, 0 < R.rnd (Real.exp t.val) := fun t => (rnd_pos_iff R hu _).2 (Real.exp_pos _)
  have hround : ∀ t : Fl R, (if Scalar.beq (f t) 0 = true then (1 : Fl R) else f t) = ⟨(roundPos (R.rnd (Real.exp t.val)) : ℝ)⟩ := by
    intro t
    rw [← round_eq (hpos t)]
    have e : (f t).val = Scalar.round (R.rnd (Real.exp t.val)) := rfl
    simp only [Fl.beq_eq, Fl.zero_val, decide_eq_true_eq, e]
    split
    · rfl
    · exact Fl.ext e
  have hx := hy.isVec.map f
  have h0 : (y.map f).idx 0 = .ok (f (y.vec 0)) := hx.idx (by norm_num)
  obtain ⟨x1, hx1, hx1v⟩ : ∃ x1, (if Scalar.beq (f (y.vec 0)) 0 then (y.map f).setIdx 0 1 else .ok (y.map f)) = .ok x1 ∧
      IsVec x1 2 (fun i => if i = 0 then ⟨(roundPos (R.rnd (Real.exp (y.vec 0).val)) : ℝ)⟩ else f (y.vec i)) := by
    have hr := hround (y.vec 0)
    split
    · rename_i c
      rw [if_pos c] at hr
      obtain ⟨z, e1, e2⟩ := hx.setIdx (i := 0) (by norm_num) 1
      refine ⟨z, e1, e2.congr fun i _ => ?_⟩
      by_cases hi : i = 0
      · subst hi; simp [upd1, hr]
      · simp [upd1, hi]
    · rename_i c
      rw [if_neg c] at hr
      refine ⟨_, rfl, hx.congr fun i _ => ?_⟩
      by_cases hi : i = 0
      · subst hi; simp [hr]
      · simp [hi]
  have h1 : x1.idx 1 = .ok (f (y.vec 1)) := by rw [hx1v.idx (by norm_num)]; rfl
  obtain ⟨x2, hx2, hx2v⟩ : ∃ x2, (if Scalar.beq (f (y.vec 1)) 0 then x1.setIdx 1 1 else .ok x1) = .ok x2 ∧
      IsVec x2 2 (fun i => ⟨(roundPos (R.rnd (Real.exp (y.vec i).val)) : ℝ)⟩) := by
    have hr := hround (y.vec 1)
    split
    · rename_i c
      rw [if_pos c] at hr
      obtain ⟨z, e1, e2⟩ := hx1v.setIdx (i := 1) (by norm_num) 1
      refine ⟨z, e1, e2.congr fun i hi => ?_⟩
      obtain rfl | rfl : i = 0 ∨ i = 1 := by omega
      · simp [upd1]
      · simp [upd1, hr]
    · rename_i c
      rw [if_neg c] at hr
      refine ⟨_, rfl, hx1v.congr fun i hi => ?_⟩
      obtain rfl | rfl : i = 0 ∨ i = 1 := by omega
      · simp
      · simp [hr]
  have hfin := hx2v.map Scalar.ln
  refine ⟨x2.map Scalar.ln, ?_, hfin.shape, ?_⟩
  · have hx' : (y.map fun v => Scalar.round (Scalar.exp v)) = y.map f := rfl
    simp only [profitRound, hx', h0, Res.ok_bind]
    have hlast : (if Scalar.beq (f (y.vec 1)) 0 = true then do
          let x ← x1.setIdx 1 1
          Res.ok (Arr.map Scalar.ln x)
        else Res.ok (Arr.map Scalar.ln x1)) = Res.ok (Arr.map Scalar.ln x2) := by
      split at hx2
      · rename_i c
        rw [if_pos c, hx2, Res.ok_bind]
      · rename_i c
        rw [if_neg c]
        obtain rfl : x1 = x2 := by simpa using hx2
        rfl
    split at hx1
    · rename_i c
      rw [if_pos c, hx1, Res.ok_bind, h1, Res.ok_bind]
      exact hlast
    · rename_i c
      obtain rfl : y.map f = x1 := by simpa using hx1
      rw [if_neg c, h1, Res.ok_bind]
      exact hlast
  · funext i
    exact congrArg Fl.val (hfin.vec i.2)

/-- **C95** One query of `ProfitOracleQ` in rounded arithmetic, first attempt or retry, whatever its history: no panic; an accepted
point is the rounded logarithm of a vector of positive integers, obeys the stored limit, the new `γ'` is its true profit up to
`profitErr`, and that profit is not below the old `γ` by more than a stated amount; otherwise `γ` is unchanged.  A first attempt
answers at the query point itself, when it violates a constraint, or at the integer point next to it; a retry answers at the
integer point remembered from the last first attempt. -/
theorem C95_discrete_answer (hu : u ≤ 1 / 8) (h : d.Pos) (o : ProfitOracleQ (Fl R)) (ho : o.FlFor d) (y : Arr (Fl R))
    (hy : y.IsVecShape 2) (γ : Fl R) (retry : Bool) :
    ∃ g beta shrunk x0 more γ' o',
      ProfitOracleQ.oracle.assess o y γ retry = .ok (((g, ⟨beta⟩), shrunk, x0, more), γ', o') ∧ o'.FlFor d ∧
      g.IsVecShape 2 ∧ x0.IsVecShape 2 ∧ more = !retry ∧
      (shrunk = true → IsFlLogInt R (x0.flVec 2) ∧ x0.flVec 2 0 ≤ R.rnd (Real.log d.limit) ∧
        |γ'.val - d.profit (x0.flVec 2)| ≤ d.profitErr u (x0.flVec 2) ∧
        (0 ≤ γ.val → γ.val ≤ Real.exp (d.cmpErr u (x0.flVec 2)) / (1 - u) * d.revenue (x0.flVec 2) -
          (2 - (1 + u) ^ 3) * d.expense (x0.flVec 2))) ∧
      (shrunk = false → γ' = γ) ∧ (retry = true → x0 = o.yd) ∧
      (retry = false → (shrunk = false ∧ x0 = y ∧ 0 < beta.val) ∨
        x0.flVec 2 = fun i => R.rnd (Real.log (roundPos (R.rnd (Real.exp (y.flVec 2 i)))))) := by
  have cut : ∀ o : ProfitOracleQ (Fl R), o.FlFor d → ∃ g beta shrunk γ' o',
      o.cutAtYd y γ retry = .ok (((g, ⟨beta⟩), shrunk, o.yd, !retry), γ', o') ∧ o'.FlFor d ∧ g.IsVecShape 2 ∧
      (shrunk = true → o.yd.flVec 2 0 ≤ R.rnd (Real.log d.limit) ∧
        |γ'.val - d.profit (o.yd.flVec 2)| ≤ d.profitErr u (o.yd.flVec 2) ∧
        (0 ≤ γ.val → γ.val ≤ Real.exp (d.cmpErr u (o.yd.flVec 2)) / (1 - u) * d.revenue (o.yd.flVec 2) -
          (2 - (1 + u) ^ 3) * d.expense (o.yd.flVec 2))) ∧
      (shrunk = false → γ' = γ) := by
    intro o ho
    obtain ⟨g, b, s, γ', w, hq, hw, hg, h1, h2⟩ := C95_profit_answer hu h o.omega ho.inner o.yd ho.yd γ
    obtain ⟨z, hz, hzv⟩ := ho.yd.isVec.zipWith hy.isVec (· - ·)
    have hz' : o.yd.sub y = .ok z := hz
    have hdot := dot_spec hg.isVec hzv
    have hq' : o.omega.assess o.yd γ = .ok (((g, ⟨b⟩), s), γ', w) := hq
    exact ⟨g, _, s, γ', { o with omega := w }, by simp only [ProfitOracleQ.cutAtYd, hq', Res.ok_bind, hz', hdot]; rfl,
      ⟨hw, ho.yd, ho.int⟩, hg, h1, fun hs => (h2 hs).1⟩
  cases hret : retry with
  | true =>
    subst hret
    obtain ⟨g, b, s, γ', o', h1, h2, h3, h4, h5⟩ := cut o ho
    refine ⟨g, b, s, o.yd, false, γ', o', ?_, h2, h3, ho.yd, rfl, fun hs => ⟨ho.int, h4 hs⟩, h5, fun _ => rfl, by simp⟩
    simp only [ProfitOracleQ.oracle, ProfitOracleQ.assess]
    exact h1
  | false =>
    subst hret
    obtain ⟨r, w, hr, hw, -, hnone, hsome⟩ := profit_feas_fl ho.inner hy γ
    cases r with
    | some p =>
      obtain ⟨g, b⟩ := p
      obtain ⟨hb, hg, -⟩ := hsome g b rfl
      refine ⟨g, b, false, y, true, γ, { o with omega := w }, ?_, ⟨hw, ho.yd, ho.int⟩, hg, hy, rfl, by simp, fun _ => rfl,
        by simp, fun _ => .inl ⟨rfl, rfl, hb⟩⟩
      simp only [ProfitOracleQ.oracle, ProfitOracleQ.assess, Bool.not_false, if_true, hr, Res.ok_bind]
    | none =>
      obtain ⟨z, hz, hzs, hzv⟩ := profitRound_fl hu hy
      have hint : IsFlLogInt R (z.flVec 2) := by
        rw [hzv]
        exact ⟨fun i => roundPos (R.rnd (Real.exp (y.flVec 2 i))), fun _ => le_max_left _ _, fun _ => rfl⟩
      obtain ⟨g, b, s, γ', o', h1, h2, h3, h4, h5⟩ := cut ⟨w, z⟩ ⟨hw, hzs, hint⟩
      refine ⟨g, b, s, z, true, γ', o', ?_, h2, h3, hzs, rfl, fun hs => ⟨hint, h4 hs⟩, h5, by simp, fun _ => .inr hzv⟩
      simp only [ProfitOracleQ.oracle, ProfitOracleQ.assess, Bool.not_false, if_true, hr, Res.ok_bind, hz]
      exact h1

/-- **C95** (discrete runs)  `cutting_plane_optim_q` with the discrete profit oracle in rounded arithmetic, over any steady search
space: the run ends without a panic; a returned point is the rounded logarithm of a vector of positive integers, obeys the stored
limit, and the reported `γ'` is its true profit up to `profitErr`. -/
theorem C95_discrete_run {S : Type} {sp : Space S (Arr (Fl R)) (SingleCut (Fl R)) (Fl R)} {Q : S → Prop} (hsp : sp.Steady 2 Q)
    (hu : u ≤ 1 / 8) (h : d.Pos) (o : ProfitOracleQ (Fl R)) (ho : o.FlFor d) {s : S} (hs : Q s) (γ : Fl R)
    (opts : Options (Fl R)) :
    ∃ r k γ' o' s', cuttingPlaneOptimQ ProfitOracleQ.oracle sp o s γ opts = .ok ((r, k), γ', o', s') ∧ (r = none → γ' = γ) ∧
      ∀ x, r = some x → IsFlLogInt R (x.flVec 2) ∧ x.flVec 2 0 ≤ R.rnd (Real.log d.limit) ∧
        |γ'.val - d.profit (x.flVec 2)| ≤ d.profitErr u (x.flVec 2) := by
  obtain ⟨r, k, γ', w', s', h1, -, h3, h4⟩ := optimQ_accepted hsp (I := fun w _ => w.FlFor d)
    (orc := ProfitOracleQ.oracle) (w := o) (s := s) (g := γ) (by
      intro w x g retry hw hx
      obtain ⟨gr, beta, sh, x0, more, g', w', hq, hw', hsh, -, -, -, e, -⟩ := C95_discrete_answer hu h w hw x hx g retry
      exact ⟨(gr, ⟨beta⟩), sh, x0, more, g', w', hq, hw', e, hsh⟩) opts ho hs
  refine ⟨r, k, γ', w', s', h1, h3, ?_⟩
  intro x hx
  obtain ⟨w1, xc, g1, retry, c, more, w2, hw1, hxc, hq⟩ := h4 x hx
  obtain ⟨gr, beta, sh, x0, more', g', w3, hq', -, -, -, -, e, -⟩ := C95_discrete_answer hu h w1 hw1 xc hxc g1 retry
  rw [hq] at hq'
  simp only [Res.ok.injEq, Prod.mk.injEq] at hq'
  obtain ⟨⟨-, rfl, rfl, -⟩, rfl, -⟩ := hq'
  exact ⟨(e rfl).1, (e rfl).2.1, (e rfl).2.2.1⟩

/-- **C95** (discrete start) -/
theorem C95_discrete_new {price scale limit : Fl R} {a v : Arr (Fl R)} (ha : a.IsVecShape 2) (hv : v.IsVecShape 2) :
    (ProfitOracleQ.new price scale limit a v).FlFor ⟨price.val, scale.val, limit.val, a.flVec 2, v.flVec 2⟩ := by
  refine ⟨C95_profit_new ha hv, fl_pair_shape 0 0, fun _ => 1, fun _ => le_rfl, fun i => ?_⟩
  have h0 : R.rnd 0 = 0 := by simpa using R.err 0
  rw [Nat.cast_one, Real.log_one, h0]
  fin_cases i <;> rfl

/-- the data of the test in profit_oracle.rs, exact arithmetic, any run -/
example (e : Ell ℝ) (he : e.Shaped 2) (opts : Options ℝ) :
    ∃ r k γ' o' s', cuttingPlaneOptimQ ProfitOracleQ.oracle Ell.space
        (ProfitOracleQ.new 20 40 (61 / 2) (Arr.ofList [1 / 10, 2 / 5]) (Arr.ofList [10, 35])) e 0 opts =
        .ok ((r, k), γ', o', s') ∧ 0 ≤ γ' ∧ ∀ x, r = some x → IsLogInt (x.toVec 2) := by
  have hfor := C49_new_partial (d := ⟨20, 40, 61 / 2, ![1 / 10, 2 / 5], ![10, 35]⟩) _ _ (rv_pair (1 / 10) (2 / 5)) (rv_pair 10 35)
  obtain ⟨r, k, γ', o', s', h1, h2, -, h3⟩ := C49_discrete_run_partial (C86_ell_steady (by norm_num)).1
    ⟨by norm_num, by norm_num, by norm_num, fun i => by fin_cases i <;> norm_num⟩ _ hfor he le_rfl opts
  exact ⟨r, k, γ', o', s', h1, h2, fun x hx => (h3 x hx).1⟩

/-- the same data in `f64`, any run from any ellipsoid -/
example (e : Ell (Fl bin53)) (he : e.Shaped 2) (γ : Fl bin53) (opts : Options (Fl bin53)) :
    ∃ r k γ' o' s', cuttingPlaneOptimQ ProfitOracleQ.oracle Ell.space
        (ProfitOracleQ.new (⟨20⟩ : Fl bin53) ⟨40⟩ ⟨61 / 2⟩ ⟨[Scalar.dec 1 1, Scalar.dec 4 1], 2, 0⟩ ⟨[⟨10⟩, ⟨35⟩], 2, 0⟩) e γ opts =
        .ok ((r, k), γ', o', s') ∧ ∀ x, r = some x → IsFlLogInt bin53 (x.flVec 2) := by
  have hfor := C95_discrete_new (price := (⟨20⟩ : Fl bin53)) (scale := ⟨40⟩) (limit := ⟨61 / 2⟩)
    (a := ⟨[Scalar.dec 1 1, Scalar.dec 4 1], 2, 0⟩) (v := ⟨[⟨10⟩, ⟨35⟩], 2, 0⟩) ⟨rfl, rfl, rfl⟩ ⟨rfl, rfl, rfl⟩
  obtain ⟨r, k, γ', o', s', h1, -, h2⟩ := C95_discrete_run (C86_ell_steady (by norm_num)).1 (by norm_num)
    ⟨by norm_num, by norm_num, by norm_num, fun i => by
      fin_cases i
      · show (0 : ℝ) < 10; norm_num
      · show (0 : ℝ) < 35; norm_num⟩ _ hfor he γ opts
  exact ⟨r, k, γ', o', s', h1, fun x hx => (h2 x hx).1⟩

end Ellalgo

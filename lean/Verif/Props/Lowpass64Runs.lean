import Verif.Props.Lowpass64

/-! # C130: optimisation queries and runs of the low-pass oracle in IEEE `f64` -/

namespace Ellalgo
open Matrix
variable {n : Nat} {d : LpData} {ε : ℝ}

/-- **C130** (optimisation query)  A query in IEEE-754 `f64` with current bound `γ`, at any point of the right length: it panics exactly if no test
fails and every computed stopband response is a NaN (an empty stopband included).  Otherwise it reports improvement exactly if no test fails, the new
bound is then the largest computed stopband response and not a NaN, and without improvement `γ` is unchanged. -/
theorem C130_lowpass_query (hn : 0 < n) {o : LowpassOracle B64} (ho : o.Fits n) {x : Arr B64} (hx : x.IsVecShape n) (γ : B64) :
    (LowpassOracle.oracle.assess o x γ = .panic ↔
      o.Passes n γ x ∧ ∀ k : Nat, o.nwstop ≤ k → k < o.spectrum.length → o.respOf n x k = .nan) ∧
    ∀ cut shrunk γ' o', LowpassOracle.oracle.assess o x γ = .ok ((cut, shrunk), γ', o') →
      o'.Fits n ∧ o.SameSpec o' ∧ cut.1.IsVecShape n ∧ (shrunk = true ↔ o.Passes n γ x) ∧ (shrunk = false → γ' = γ) ∧
      (shrunk = true → γ' ≠ .nan ∧ (∃ k : Nat, o.nwstop ≤ k ∧ k < o.spectrum.length ∧ γ' = o.respOf n x k) ∧
        ∀ j : Nat, o.nwstop ≤ j → j < o.spectrum.length → Scalar.lt γ' (o.respOf n x j) = false) := by
  have hof : ({ o with spSq := γ } : LowpassOracle B64).Fits n :=
    ⟨ho.rows, ho.pass, ho.order, ho.inside, ho.grid, ho.idx1, ho.idx2, ho.idx3⟩
  have hp : ({ o with spSq := γ } : LowpassOracle B64).Passes n γ x ↔ o.Passes n γ x :=
    ⟨fun h => ⟨h.pass, h.stop, h.trans, h.first⟩, fun h => ⟨h.pass, h.stop, h.trans, h.first⟩⟩
  obtain ⟨r, o1, h1, h2, h3, h4, h5, h6, h7⟩ := C130_lowpass_feas hn hof hx
  have h5 : r = none ↔ o.Passes n γ x := h5.trans hp
  have h3' : o.SameSpec o1 := ⟨h3.table, h3.pass, h3.stop, h3.lp, h3.up⟩
  cases r with
  | some c =>
    have e : LowpassOracle.oracle.assess o x γ = .ok ((c, false), γ, o1) := by
      simp only [LowpassOracle.oracle, LowpassOracle.assess, h1, Res.ok_bind]
    rw [e]
    refine ⟨⟨by simp, fun h => by simpa using h5.2 h.1⟩, ?_⟩
    intro cut shrunk γ' o' h
    simp only [Res.ok.injEq, Prod.mk.injEq] at h
    obtain ⟨⟨rfl, rfl⟩, rfl, rfl⟩ := h
    exact ⟨h2, h3', h6 _ rfl, by simpa using h5, fun _ => rfl, by simp⟩
  | none =>
    rcases h7 rfl with ⟨k1, k2, k3⟩ | ⟨k, k1, k2, k3, k4, k5, k6⟩
    · have e : LowpassOracle.oracle.assess o x γ = .panic := by
        simp only [LowpassOracle.oracle, LowpassOracle.assess, h1, Res.ok_bind, k1]
        rfl
      rw [e]
      exact ⟨⟨fun _ => ⟨h5.1 rfl, k3⟩, fun _ => rfl⟩, by simp⟩
    · have hlt : k < o1.spectrum.length := by rw [h3'.table]; exact k2
      have hcol : nthI32 o1.spectrum (k : Int) = .ok (o1.spectrum[k]) := by
        rw [nthI32, if_pos (by omega), Int.toNat_natCast, List.getElem?_eq_getElem hlt]
        rfl
      have e : LowpassOracle.oracle.assess o x γ = .ok (((o1.spectrum[k], ⟨0, some (o.respOf n x k)⟩), true), o.respOf n x k, o1) := by
        simp only [LowpassOracle.oracle, LowpassOracle.assess, h1, Res.ok_bind, k3, hcol, k4, Res.ofOption]
        rfl
      rw [e]
      refine ⟨⟨by simp, fun h => absurd (h.2 k k1 k2) k5⟩, ?_⟩
      intro cut shrunk γ' o' h
      simp only [Res.ok.injEq, Prod.mk.injEq] at h
      obtain ⟨⟨rfl, rfl⟩, rfl, rfl⟩ := h
      exact ⟨h2, h3', h2.rows _ (List.getElem_mem hlt), by simpa using h5, by simp, fun _ => ⟨k5, ⟨k, k1, k2, rfl⟩, k6⟩⟩

theorem LowpassOracle.For64.fits (hd : d.Ok) {o : LowpassOracle B64} (ho : o.For64 d n ε) : o.Fits n := by
  have h1 := hd.order
  have h2 := hd.inside
  have h3 := hd.grid
  refine ⟨fun c hc => (ho.shape c hc).1, ?_, ?_, ?_, ?_, ?_, ?_, ?_⟩
  · rw [ho.pass]; omega
  · rw [ho.pass, ho.stop]; exact_mod_cast h1
  · rw [ho.stop, ho.len]; exact_mod_cast h2
  · rw [ho.len]; omega
  · rw [ho.pass]; exact ⟨ho.idx1.1, fun h => ho.idx1.2 (by exact_mod_cast h)⟩
  · rw [ho.pass, ho.stop]; exact ⟨ho.idx2.1, fun h => ho.idx2.2 (by exact_mod_cast h)⟩
  · rw [ho.stop, ho.len]; exact ⟨ho.idx3.1, fun h => ho.idx3.2 (by exact_mod_cast h)⟩

/-- **C130** (responses)  At a filter of finite numbers and of ordinary size the computed responses are finite and are the true ones up to `lpErr`, for
`u = 2⁻⁵³`, whatever the number of taps. -/
theorem C130_lowpass_response {o : LowpassOracle B64} (ho : o.For64 d n ε) {x : Arr B64} (hx : x.IsVecShape n) (hf : x.AllFinite)
    (ht : o.TameAt n (x.vec64 n)) {k : Nat} (hk : k < d.m) :
    (o.respOf n x k).Finite ∧ |(o.respOf n x k).val - lpResponse (x.vec64 n) (d.freq k)| ≤
      lpErr ((2 : ℝ) ^ (-53 : ℤ)) ε n 0 (x.vec64 n) (x.vec64 n) := by
  have hlt : k < o.spectrum.length := by rw [ho.len]; exact hk
  obtain ⟨a, hax⟩ : ∃ a, a = o.spectrum.getD k (Arr.new 0) := ⟨_, rfl⟩
  have hmem : a ∈ o.spectrum := by
    rw [hax, List.getD_eq_getElem?_getD, List.getElem?_eq_getElem hlt]; exact List.getElem_mem hlt
  obtain ⟨hs, hfa⟩ := ho.shape a hmem
  have ha : ∀ j, |a.vec64 n j - lpRow d n k j| ≤ ε := by rw [hax]; exact ho.close k hk
  have sx : ∀ j : Nat, Same (x.vec j) (x.toFl.vec j) := fun j => ⟨allFinite_vec hf j, by rw [Arr.toFl_vec]⟩
  have sa : ∀ j : Nat, Same (a.vec j) (a.toFl.vec j) := fun j => ⟨allFinite_vec hfa j, by rw [Arr.toFl_vec]⟩
  have shp : ∀ b : Arr B64, b.IsVecShape n → b.toFl.IsVecShape n := fun b hb => ⟨hb.1, hb.2.1, by
    show (b.data.map _).length = _
    rw [List.length_map]; exact hb.2.2⟩
  have prod : ∀ j < n, Same (a.vec j * x.vec j) (a.toFl.vec j * x.toFl.vec j) ∧ (a.vec j * x.vec j).Small 900 := by
    intro j hj
    obtain ⟨t1, t2⟩ := ht a hmem ⟨j, hj⟩
    have ho' : |rnd53 ((a.vec j).val * (x.vec j).val)| ≤ (2 : ℝ) ^ (900 : ℤ) := rnd53_abs_pow t2
    have s : Same (a.vec j * x.vec j) (a.toFl.vec j * x.toFl.vec j) := (sa j).mul (sx j) (by
      refine ⟨?_, ?_⟩
      · rw [← (sx j).2, ← (sa j).2]; exact t1
      · rw [← (sx j).2, ← (sa j).2]; exact B64.pow_lt_max (by norm_num) ho')
    refine ⟨s, s.1, ?_⟩
    rw [s.2]
    show |rnd53 ((a.toFl.vec j).val * (x.toFl.vec j).val)| ≤ _
    rw [← (sx j).2, ← (sa j).2]
    exact ho'
  obtain ⟨s1, s2⟩ := Same.sum_stay n (fun j hj => (prod j hj).1) (fun j hj => (prod j hj).2)
  obtain ⟨r, hr1, hr2⟩ := C71_dot_error a.toFl x.toFl (shp a hs) (shp x hx)
  rw [dot_spec (shp a hs).isVec (shp x hx).isVec] at hr1
  have e1 : ∀ b : Arr B64, b.toFl.flVec n = b.vec64 n := by
    intro b
    funext j
    show (b.toFl.vec j).val = _
    rw [Arr.toFl_vec]; rfl
  rw [e1, e1] at hr2
  have hval : (o.respOf n x k).val = r.val := by
    unfold LowpassOracle.respOf
    rw [← hax, s1.2, ← Res.ok.inj hr1]
  refine ⟨by unfold LowpassOracle.respOf; rw [← hax]; exact s1.1, ?_⟩
  rw [hval]
  have h0 : (0 : ℝ) ≤ (2 : ℝ) ^ (-53 : ℤ) := by positivity
  have b1 := lp_val_err h0 ha hr2
  have b2 := lp_row_err ha (x.vec64 n)
  have b3 := mul_nonneg h0 (abs_nonneg r.val)
  have b4 := abs_add_le (r.val - a.vec64 n ⬝ᵥ x.vec64 n) (a.vec64 n ⬝ᵥ x.vec64 n - lpResponse (x.vec64 n) (d.freq k))
  rw [sub_add_sub_cancel] at b4
  unfold lpErr
  linarith

theorem B64.le_of_not_lt {a b : B64} (ha : a.Finite) (hb : b.Finite) (h : Scalar.lt a b = false) : b.val ≤ a.val := by
  by_contra hc
  have p1 := B64.place_finite ha
  have p2 := B64.place_finite hb
  rw [(B64.lt_iff a b).2 ⟨p1.1, p2.1, by rw [p1.2, p2.2]; exact_mod_cast not_le.1 hc⟩] at h
  cases h

/-- a filter of ordinary size that passes all tests with bound `sp` meets the specification up to `lpErr` with any bound `σ` that the computed
stopband responses respect -/
theorem lp_passes_real (hd : d.Ok) {o : LowpassOracle B64} (ho : o.For64 d n ε) {x : Arr B64} (hx : x.IsVecShape n) (hf : x.AllFinite)
    (ht : o.TameAt n (x.vec64 n)) {sp : B64} (hp : o.Passes n sp x) {σ : ℝ}
    (hσ : ∀ k, d.stop ≤ k → k < d.m → (o.respOf n x k).val ≤ σ) :
    x.vec64 n ∈ d.feasibleWith σ (-lpErr ((2 : ℝ) ^ (-53 : ℤ)) ε n 0 (x.vec64 n) (x.vec64 n)) := by
  have h1 := hd.order
  have h2 := hd.inside
  have hz : (0 : B64).Finite ∧ (0 : B64).val = 0 := ⟨Same.zero.1, Same.zero.2⟩
  have key : ∀ k < d.m, _ := fun k hk => C130_lowpass_response ho hx hf ht hk
  refine ⟨fun i hi => ?_, fun i h1 h2 => ?_, fun i h1 h2 => ?_, fun j hj => ?_⟩
  · obtain ⟨f1, f2⟩ := key i (by omega)
    obtain ⟨p1, p2⟩ := hp.pass i (by rw [ho.pass]; omega)
    have q1 := B64.le_of_not_lt ho.up.1 f1 p1
    have q2 := B64.le_of_not_lt f1 ho.lp.1 p2
    rw [ho.up.2] at q1
    rw [ho.lp.2] at q2
    have := abs_le.1 f2
    constructor <;> linarith
  · obtain ⟨f1, f2⟩ := key i h2
    obtain ⟨p1, p2⟩ := hp.stop i (by rw [ho.stop]; omega) (by rw [ho.len]; exact h2)
    have q1 := hσ i h1 h2
    have q2 := B64.le_of_not_lt f1 hz.1 p2
    rw [hz.2] at q2
    have := abs_le.1 f2
    constructor <;> linarith
  · obtain ⟨f1, f2⟩ := key i (by omega)
    have p2 := hp.trans i (by rw [ho.pass]; omega) (by rw [ho.stop]; omega)
    have q2 := B64.le_of_not_lt f1 hz.1 p2
    rw [hz.2] at q2
    have := abs_le.1 f2
    linarith
  · have q2 := B64.le_of_not_lt (allFinite_vec hf 0) hz.1 hp.first
    rw [hz.2] at q2
    have e : x.vec64 n j = (x.vec 0).val := by rw [Arr.vec64, hj]
    obtain ⟨-, f2⟩ := key 0 (by have := hd.grid; omega)
    have := (abs_nonneg _).trans f2
    rw [e]
    linarith

/-- **C130** (runs of `cutting_plane_feas`)  With a low-pass oracle for the specification `d` in IEEE-754 `f64`, over any search space that keeps its
dimension, `Ell` and `EllStable` among them, whatever overflows, underflows or turns into a NaN in it on the way: the run ends without a panic, and no
test of the specification fails for the computed responses of a returned filter.  If the filter is of finite numbers and of ordinary size and the
stopband bound is finite, it meets the specification up to `lpErr`, for `u = 2⁻⁵³`. -/
theorem C130_lowpass_feas_run (hd : d.Ok) {S : Type} {sp : Space S (Arr B64) (ParallelCut B64) B64} {Q : S → Prop} (hsp : sp.Steady n Q)
    {o : LowpassOracle B64} (ho : o.For64 d n ε) {s : S} (hQ : Q s) (opts : Options B64) :
    ∃ r k o' s', cuttingPlaneFeas LowpassOracle.oracleFeas sp o s opts = .ok ((r, k), o', s') ∧
      ∀ x, r = some x → x.IsVecShape n ∧ o.Passes n o.spSq x ∧
        (x.AllFinite → o.TameAt n (x.vec64 n) → o.spSq.Finite →
          x.vec64 n ∈ d.feasibleWith o.spSq.val (-lpErr ((2 : ℝ) ^ (-53 : ℤ)) ε n 0 (x.vec64 n) (x.vec64 n))) := by
  obtain ⟨r, k, w', s', h1, h2⟩ := feas_accepted hsp (I := fun w => w.Fits n ∧ o.SameSpec w ∧ w.spSq = o.spSq)
    (orc := LowpassOracle.oracleFeas) (w := o) (s := s) (by
      rintro w x ⟨hw, hsm, hsq⟩ hx
      obtain ⟨r, w', hq, a1, a2, a3, -, a4, -⟩ := C130_lowpass_feas ho.dim hw hx
      exact ⟨r, w', hq, ⟨a1, ⟨a2.table.trans hsm.table, a2.pass.trans hsm.pass, a2.stop.trans hsm.stop, a2.lp.trans hsm.lp, a2.up.trans hsm.up⟩,
        a3.trans hsq⟩, a4⟩) opts ⟨ho.fits hd, ⟨rfl, rfl, rfl, rfl, rfl⟩, rfl⟩ hQ
  refine ⟨r, k, w', s', h1, ?_⟩
  intro x hx
  obtain ⟨hxs, w1, ⟨hw1, hsm, hsq⟩, hq⟩ := h2 x hx
  obtain ⟨r', w2, hq', -, -, -, ha, -⟩ := C130_lowpass_feas ho.dim hw1 hxs
  rw [show w1.assessFeas x = .ok (none, w') from hq] at hq'
  simp only [Res.ok.injEq, Prod.mk.injEq] at hq'
  have hp1 := ha.1 hq'.1.symm
  have hp : o.Passes n o.spSq x := by
    have hr : ∀ k, w1.respOf n x k = o.respOf n x k := fun k => by unfold LowpassOracle.respOf; rw [hsm.table]
    obtain ⟨b1, b2, b3, b4⟩ := hp1
    simp only [hr, hsm.pass, hsm.stop, hsm.table, hsm.lp, hsm.up, hsq] at b1 b2 b3
    exact ⟨b1, b2, b3, b4⟩
  refine ⟨hxs, hp, fun hf ht hsp => lp_passes_real hd ho hxs hf ht hp fun k h1 h2 => ?_⟩
  exact B64.le_of_not_lt hsp (C130_lowpass_response ho hxs hf ht h2).1
    (hp.stop k (by rw [ho.stop]; omega) (by rw [ho.len]; exact h2)).1

/-- Over a steady space, what a run of `cutting_plane_optim` hands back when the oracle may panic. -/
theorem optim_accepted_or_panic {Ω S T α : Type} [Scalar α] {orc : OracleOptim Ω (Arr α) T α} {sp : Space S (Arr α) T α} {n : Nat} {Q : S → Prop}
    (hsp : sp.Steady n Q) {I : Ω → α → Prop}
    (hI : ∀ w x g, I w g → x.IsVecShape n → ∀ c b g' w', orc.assess w x g = .ok ((c, b), g', w') → I w' g' ∧
      (b = false → g' = g) ∧ c.1.IsVecShape n)
    {w : Ω} {s : S} {g : α} (opts : Options α) (hw : I w g) (hs : Q s) :
    (cuttingPlaneOptim orc sp w s g opts = .panic ∧ ∃ w s g, I w g ∧ Q s ∧ orc.assess w (sp.xc s) g = .panic) ∨
    ∃ r k g' w' s', cuttingPlaneOptim orc sp w s g opts = .ok ((r, k), g', w', s') ∧ I w' g' ∧ (r = none → g' = g) ∧
      ∀ x, r = some x → x.IsVecShape n ∧ ∃ w1 g1 c w2, I w1 g1 ∧ orc.assess w1 x g1 = .ok ((c, true), g', w2) := by
  have key : ∀ (m n0 : Nat) (xb : Option (Arr α)) (w : Ω) (s : S) (g1 : α), I w g1 → Q s → (xb = none → g1 = g) →
      (∀ y, xb = some y → y.IsVecShape n ∧ ∃ w1 g0 c w2, I w1 g0 ∧ orc.assess w1 y g0 = .ok ((c, true), g1, w2)) →
      (optimLoop orc sp opts.tolerance m n0 xb w s g1 = .panic ∧ ∃ w s g, I w g ∧ Q s ∧ orc.assess w (sp.xc s) g = .panic) ∨
      ∃ r k g' w' s', optimLoop orc sp opts.tolerance m n0 xb w s g1 = .ok ((r, k), g', w', s') ∧ I w' g' ∧
        (r = none → g' = g) ∧
        ∀ x, r = some x → x.IsVecShape n ∧ ∃ w1 g1 c w2, I w1 g1 ∧ orc.assess w1 x g1 = .ok ((c, true), g', w2) := by
    intro m
    induction m with
    | zero => exact fun n0 xb w s g1 hw hs hn hb => .inr ⟨xb, n0, g1, w, s, rfl, hw, hn, hb⟩
    | succ m ih =>
      intro n0 xb w s g1 hw hs hn hb
      obtain ⟨q, hq⟩ : ∃ q, orc.assess w (sp.xc s) g1 = q := ⟨_, rfl⟩
      cases q with
      | panic =>
        refine .inl ⟨?_, w, s, g1, hw, hs, hq⟩
        simp only [optimLoop, hq]
        rfl
      | ok v =>
      obtain ⟨⟨⟨gr, t⟩, b⟩, g2, w1⟩ := v
      obtain ⟨hI1, hg, hc⟩ := hI w (sp.xc s) g1 hw (hsp.centre s hs) _ _ _ _ hq
      have hb1 : ∀ y, (if b = true then some (sp.xc s) else xb) = some y →
          y.IsVecShape n ∧ ∃ w3 g3 c w2, I w3 g3 ∧ orc.assess w3 y g3 = .ok ((c, true), g2, w2) := by
        intro y hy
        cases b with
        | true =>
          simp only [if_true, Option.some.injEq] at hy
          exact ⟨hy ▸ hsp.centre s hs, w, g1, _, w1, hw, hy ▸ hq⟩
        | false =>
          rw [hg rfl]
          exact hb y (by simpa using hy)
      have hn1 : (if b = true then some (sp.xc s) else xb) = none → g2 = g := by
        cases b with
        | true => simp
        | false => intro h; rw [hg rfl]; exact hn (by simpa using h)
      obtain ⟨st, s1, hu, hs1⟩ : ∃ st s1, (if b = true then sp.updateCentral s (gr, t) else sp.updateBias s (gr, t)) =
          .ok (st, s1) ∧ Q s1 := by
        cases b with
        | true => exact hsp.step .central s gr t hs hc
        | false => exact hsp.step .bias s gr t hs hc
      simp only [optimLoop, hq, Res.ok_bind, hu]
      split
      · exact .inr ⟨_, _, _, _, _, rfl, hI1, hn1, hb1⟩
      · exact ih _ _ _ _ _ hI1 hs1 hn1 hb1
  exact key _ _ _ _ _ _ hw hs (fun _ => rfl) (by simp)

/-- **C130** (runs of `cutting_plane_optim`)  With a low-pass oracle for the specification `d` in IEEE-754 `f64`, over any search space that keeps its
dimension, whatever overflows, underflows or turns into a NaN in it on the way: the run panics only at a centre all of whose computed stopband
responses are NaNs.  If it ends, the bound has not become larger, and without a filter it is unchanged.  No test of the specification fails for the
computed responses of a returned filter, and the reported bound is the largest of those in the stopband.  If the filter is of finite numbers and of
ordinary size, the bound is finite, the filter meets the specification with this bound up to `lpErr`, and attains it at a stopband frequency up to
`lpErr`, for `u = 2⁻⁵³`. -/
theorem C130_lowpass_optim_run (hd : d.Ok) {S : Type} {sp : Space S (Arr B64) (ParallelCut B64) B64} {Q : S → Prop} (hsp : sp.Steady n Q)
    {o : LowpassOracle B64} (ho : o.For64 d n ε) {s : S} (hQ : Q s) (γ : B64) (opts : Options B64) :
    (cuttingPlaneOptim LowpassOracle.oracle sp o s γ opts = .panic ∧
      ∃ s, Q s ∧ ∀ k, d.stop ≤ k → k < d.m → o.respOf n (sp.xc s) k = .nan) ∨
    ∃ r k γ' o' s', cuttingPlaneOptim LowpassOracle.oracle sp o s γ opts = .ok ((r, k), γ', o', s') ∧ Scalar.lt γ γ' = false ∧
      (r = none → γ' = γ) ∧
      ∀ x, r = some x → x.IsVecShape n ∧ o.Passes n γ' x ∧ (∃ k, d.stop ≤ k ∧ k < d.m ∧ γ' = o.respOf n x k) ∧
        (x.AllFinite → o.TameAt n (x.vec64 n) → γ'.Finite ∧
          x.vec64 n ∈ d.feasibleWith γ'.val (-lpErr ((2 : ℝ) ^ (-53 : ℤ)) ε n 0 (x.vec64 n) (x.vec64 n)) ∧
          ∃ k, d.stop ≤ k ∧ k < d.m ∧ |γ'.val - lpResponse (x.vec64 n) (d.freq k)| ≤
            lpErr ((2 : ℝ) ^ (-53 : ℤ)) ε n 0 (x.vec64 n) (x.vec64 n)) := by
  have hself : ∀ a : B64, Scalar.lt a a = false := by
    intro a
    by_contra h
    exact lt_irrefl _ ((B64.lt_iff a a).1 (by simpa using h)).2.2
  rcases optim_accepted_or_panic hsp
    (I := fun w g => w.Fits n ∧ o.SameSpec w ∧ Scalar.lt γ g = false ∧ (g = γ ∨ g ≠ .nan))
    (orc := LowpassOracle.oracle) (w := o) (s := s) (g := γ) (by
      rintro w x g ⟨hw, hsm, hg1, hg2⟩ hx c b g' w' hq
      obtain ⟨a1, a2, a3, a4, a5, a6⟩ := (C130_lowpass_query ho.dim hw hx g).2 c b g' w' hq
      refine ⟨⟨a1, ⟨a2.table.trans hsm.table, a2.pass.trans hsm.pass, a2.stop.trans hsm.stop, a2.lp.trans hsm.lp, a2.up.trans hsm.up⟩, ?_⟩, a5, a3⟩
      cases b with
      | false => rw [a5 rfl]; exact ⟨hg1, hg2⟩
      | true =>
        obtain ⟨b1, ⟨k, b2, b3, b4⟩, b5⟩ := a6 rfl
        refine ⟨?_, .inr b1⟩
        have hlt := ((a4.1 rfl).stop k b2 b3).1
        rw [← b4] at hlt
        rcases hg2 with rfl | hg2
        · exact hlt
        · by_contra hc
          obtain ⟨c1, c2, c3⟩ := (B64.lt_iff _ _).1 (show Scalar.lt γ g' = true by simpa using hc)
          have d1 : g'.place ≤ g.place := by
            by_contra h
            rw [(B64.lt_iff _ _).2 ⟨hg2, b1, not_le.1 h⟩] at hlt
            cases hlt
          rw [(B64.lt_iff _ _).2 ⟨c1, hg2, c3.trans_le d1⟩] at hg1
          cases hg1) opts ⟨ho.fits hd, ⟨rfl, rfl, rfl, rfl, rfl⟩, hself γ, .inl rfl⟩ hQ with ⟨h1, w, s1, g1, ⟨hw, hsm, -⟩, hs1, hq⟩ | ⟨r, k, γ', w', s', h1, h2, h3, h4⟩
  · refine .inl ⟨h1, s1, hs1, fun k hk1 hk2 => ?_⟩
    have := ((C130_lowpass_query ho.dim hw (hsp.centre s1 hs1) g1).1.1 hq).2 k (by rw [hsm.stop, ho.stop]; omega) (by rw [hsm.table, ho.len]; exact hk2)
    unfold LowpassOracle.respOf at this ⊢
    rwa [hsm.table] at this
  · refine .inr ⟨r, k, γ', w', s', h1, h2.2.2.1, h3, ?_⟩
    intro x hx
    obtain ⟨hxs, w1, g1, c, w2, ⟨hw1, hsm, -⟩, hq⟩ := h4 x hx
    obtain ⟨-, -, -, a4, -, a6⟩ := (C130_lowpass_query ho.dim hw1 hxs g1).2 _ _ _ _ hq
    have hr : ∀ k, w1.respOf n x k = o.respOf n x k := fun k => by unfold LowpassOracle.respOf; rw [hsm.table]
    obtain ⟨b1, b2, b3, b4⟩ := a4.1 rfl
    obtain ⟨-, ⟨k, c2, c3, c4⟩, c5⟩ := a6 rfl
    simp only [hr, hsm.pass, hsm.stop, hsm.table, hsm.lp, hsm.up] at b1 b2 b3 c2 c3 c4 c5
    have hp : o.Passes n γ' x := ⟨b1, fun j h1 h2 => ⟨c5 j h1 h2, (b2 j h1 h2).2⟩, b3, b4⟩
    rw [ho.stop] at c2
    rw [ho.len] at c3
    refine ⟨hxs, hp, ⟨k, by omega, c3, c4⟩, fun hf ht => ?_⟩
    obtain ⟨e1, e2⟩ := C130_lowpass_response ho hxs hf ht c3
    have hfin : γ'.Finite := by rw [c4]; exact e1
    refine ⟨hfin, lp_passes_real hd ho hxs hf ht hp fun j h1 h2 => ?_, k, by omega, c3, by rw [c4]; exact e2⟩
    exact B64.le_of_not_lt hfin (C130_lowpass_response ho hxs hf ht h2).1
      (hp.stop j (by rw [ho.stop]; omega) (by rw [ho.len]; exact h2)).1

end Ellalgo

import Verif.Model.Lowpass
import Verif.Spec.Lowpass
import Verif.Spec.Cuts
import Verif.Lib.RoundRobinLemmas
import Verif.Lib.VecOps
import Verif.Lib.ArrLemmas
import Verif.Props.ArrProps
import Verif.Props.ProfitProps

/-! C45, C46: the low-pass filter oracle. -/

namespace Ellalgo
open Matrix

variable {n : Nat} {d : LpData}

/-- row `i` of the table the oracle works with -/
noncomputable def lpRow (d : LpData) (n : Nat) (i : Nat) (j : Fin n) : ℝ :=
  if (j : Nat) = 0 then 1 else 2 * Real.cos (d.freq i * j)

theorem lpRow_dot (i : Nat) (x : Fin n → ℝ) : lpRow d n i ⬝ᵥ x = lpResponse x (d.freq i) := rfl

theorem lpResponse_sub (x y : Fin n → ℝ) (ω : ℝ) : lpResponse (x - y) ω = lpResponse x ω - lpResponse y ω := by
  simp only [lpResponse, Pi.sub_apply, mul_sub, Finset.sum_sub_distrib]

/-- The oracle is built for `d` with stopband bound `σ`; its three hidden counters are anywhere in their ranges. -/
structure LowpassOracle.For (o : LowpassOracle ℝ) (d : LpData) (n : Nat) (σ : ℝ) : Prop where
  dim : 0 < n
  len : o.spectrum.length = d.m
  rows : ∀ i (h : i < o.spectrum.length), RV (o.spectrum[i]) (lpRow d n i)
  pass : o.nwpass = d.pass
  stop : o.nwstop = d.stop
  lp : o.lpSq = d.lp
  up : o.upSq = d.up
  sp : o.spSq = σ
  idx1 : -1 ≤ o.idx1 ∧ (0 < d.pass → o.idx1 < d.pass)
  idx2 : (d.pass : Int) - 1 ≤ o.idx2 ∧ (d.pass < d.stop → o.idx2 < d.stop)
  idx3 : (d.stop : Int) - 1 ≤ o.idx3 ∧ (d.stop < d.m → o.idx3 < d.m)

theorem lp_col {o : LowpassOracle ℝ} {σ : ℝ} (ho : o.For d n σ) {i : Int} (h0 : 0 ≤ i) (h1 : i < d.m) :
    ∃ col, nthI32 o.spectrum i = .ok col ∧ RV col (lpRow d n i.toNat) := by
  have hlt : i.toNat < o.spectrum.length := by rw [ho.len]; omega
  refine ⟨o.spectrum[i.toNat], ?_, ho.rows _ hlt⟩
  rw [nthI32, if_pos h0, List.getElem?_eq_getElem hlt]
  rfl

theorem rv_negVec {a : Arr ℝ} {v : Fin n → ℝ} (h : RV a v) : RV (negVec a) (-v) := by
  have h1 := h.isVec
  refine RV.of_isVec (f := fun i => -ext0 v i) ⟨?_, rfl, ?_, ?_⟩ fun i => by simp
  · simp [negVec, Arr.ofList, h1.len]
  · simp [negVec, Arr.ofList, h1.len]
  · intro i hi
    show (a.data.map fun v => -v)[i]? = _
    rw [List.getElem?_map, h1.get i hi]
    rfl

/-- a valid cut for a set `K` at `x`: violated there, satisfied on `K` -/
structure LpCut (K : Set (Fin n → ℝ)) (x : Fin n → ℝ) (cut : Arr ℝ × ParallelCut ℝ) : Prop where
  shape : cut.1.IsVecShape n
  violated : 0 < cut.2.beta0
  keeps : ∀ y ∈ K, cut.1.toVec n ⬝ᵥ (y - x) + cut.2.beta0 ≤ 0 ∧
    ∀ b, cut.2.beta1 = some b → 0 ≤ cut.1.toVec n ⬝ᵥ (y - x) + b
  size : 1 ≤ normSq (cut.1.toVec n)

theorem lpRow_norm (hn : 0 < n) (i : Nat) : 1 ≤ normSq (lpRow d n i) := by
  have := Finset.single_le_sum (f := fun j => lpRow d n i j * lpRow d n i j) (fun j _ => mul_self_nonneg _)
    (Finset.mem_univ (⟨0, hn⟩ : Fin n))
  simpa [normSq, dotProduct, lpRow] using this

theorem normSq_neg' (v : Fin n → ℝ) : normSq (-v) = normSq v := by simp [normSq]

/-- a cut `R(ω_i) ≤ a`-type at a violated grid point -/
theorem lpCut_pos {K : Set (Fin n → ℝ)} {x : Fin n → ℝ} {col : Arr ℝ} {i : Nat} (hn : 0 < n) (hc : RV col (lpRow d n i))
    {u : ℝ} {b : Option ℝ} (hv : u < lpResponse x (d.freq i)) (hK : ∀ y ∈ K, lpResponse y (d.freq i) ≤ u)
    (hb : ∀ b', b = some b' → ∀ y ∈ K, lpResponse x (d.freq i) - b' ≤ lpResponse y (d.freq i)) :
    LpCut K x (col, ⟨lpResponse x (d.freq i) - u, b⟩) := by
  refine ⟨hc.1, sub_pos.2 hv, fun y hy => ?_, ?_⟩
  · simp only [hc.2, lpRow_dot, lpResponse_sub]
    exact ⟨by linarith [hK y hy], fun b' hb' => by linarith [hb b' hb' y hy]⟩
  · simp only [hc.2]; exact lpRow_norm hn i

theorem lpCut_neg {K : Set (Fin n → ℝ)} {x : Fin n → ℝ} {col : Arr ℝ} {i : Nat} (hn : 0 < n) (hc : RV col (lpRow d n i))
    {l β : ℝ} {b : Option ℝ} (hβ : β = l - lpResponse x (d.freq i)) (hv : lpResponse x (d.freq i) < l)
    (hK : ∀ y ∈ K, l ≤ lpResponse y (d.freq i))
    (hb : ∀ b', b = some b' → ∀ y ∈ K, lpResponse y (d.freq i) ≤ lpResponse x (d.freq i) + b') :
    LpCut K x (negVec col, ⟨β, b⟩) := by
  have hneg := rv_negVec hc
  refine ⟨hneg.1, by simp only [hβ]; linarith, fun y hy => ?_, ?_⟩
  · simp only [hneg.2, neg_dotProduct, lpRow_dot, lpResponse_sub, hβ]
    exact ⟨by linarith [hK y hy], fun b' hb' => by linarith [hb b' hb' y hy]⟩
  · simp only [hneg.2, normSq_neg']; exact lpRow_norm hn i

/-- everything about one call of `assess_feas`, including the recorded stopband maximum -/
theorem lp_assessFeas (hd : d.Ok) {σ : ℝ} (o : LowpassOracle ℝ) (ho : o.For d n σ) (xc : Arr ℝ) (hx : xc.IsVecShape n) :
    ∃ r o', o.assessFeas xc = .ok (r, o') ∧ o'.For d n σ ∧ (r = none ↔ xc.toVec n ∈ d.feasible σ) ∧
      (∀ cut, r = some cut → LpCut (d.feasible σ) (xc.toVec n) cut) ∧
      (r = none → d.stop < d.m → ∃ k, d.stop ≤ k ∧ k < d.m ∧ o'.kmax = (k : Int) ∧
        o'.fmax = some (lpResponse (xc.toVec n) (d.freq k)) ∧
        ∀ i, d.stop ≤ i → i < d.m → lpResponse (xc.toVec n) (d.freq i) ≤ lpResponse (xc.toVec n) (d.freq k)) ∧
      (r = none → d.stop = d.m → o'.kmax = -1) := by
  set x := xc.toVec n with hxd
  have hxv : RV xc x := ⟨hx, rfl⟩
  have h1 := hd.order
  have h2 := hd.inside
  have h3 := hd.grid
  obtain ⟨col0, hc0, hc0'⟩ := lp_col ho (i := 0) le_rfl (by omega)
  have hlen0 : col0.len = n := hc0'.len
  -- value of one row
  have hval : ∀ {i : Int} {col : Arr ℝ}, RV col (lpRow d n i.toNat) →
      col.dot xc = .ok (lpResponse x (d.freq i.toNat)) := fun h => by rw [RV.dot h hxv]; rfl
  set o0 : LowpassOracle ℝ := { o with moreAlt := true } with ho0
  have hof : o0.For d n σ := ⟨ho.dim, ho.len, ho.rows, ho.pass, ho.stop, ho.lp, ho.up, ho.sp, ho.idx1, ho.idx2, ho.idx3⟩
  -- passband
  obtain ⟨r1, i1, ⟨⟩, hr1, hi1, hi1', hn1, hs1⟩ := rrLoop_spec (lo := 0) (hi := (d.pass : Int)) (body := o0.passBody xc)
    (fun V _ => ∀ j : Int, 0 ≤ j → j < d.pass → V j →
      d.lp ≤ lpResponse x (d.freq j.toNat) ∧ lpResponse x (d.freq j.toNat) ≤ d.up)
    (fun _ b _ => LpCut (d.feasible σ) x b ∧ x ∉ d.feasible σ) (idx := o.idx1) (s := ())
    (by have := ho.idx1.1; omega) (by intro h; exact ho.idx1.2 (by omega)) (by intro j _ _ h; exact h.elim)
    (by
      intro V i s hlo hhi hV
      obtain ⟨col, hc1, hc2⟩ := lp_col hof hlo (by omega)
      simp only [LowpassOracle.passBody, hc1, Res.ok_bind, hval hc2, hof.up, hof.lp, Scalar.real_gt, Scalar.real_lt,
        decide_eq_true_eq]
      have hpi : i.toNat < d.pass := by omega
      split
      · rename_i hgt
        refine ⟨_, _, rfl, by simp, fun b hb => ?_⟩
        simp only [Option.some.injEq] at hb
        subst hb
        refine ⟨lpCut_pos ho.dim hc2 hgt (fun y hy => (hy.1 _ hpi).2) fun b' hb' y hy => ?_,
          fun hf => absurd (hf.1 _ hpi).2 (not_le.2 hgt)⟩
        simp only [Option.some.injEq] at hb'
        have := (hy.1 _ hpi).1
        linarith
      · rename_i hgt
        split
        · rename_i hlt
          refine ⟨_, _, rfl, by simp, fun b hb => ?_⟩
          simp only [Option.some.injEq] at hb
          subst hb
          refine ⟨lpCut_neg ho.dim hc2 (by ring) hlt (fun y hy => (hy.1 _ hpi).1) fun b' hb' y hy => ?_,
            fun hf => absurd (hf.1 _ hpi).1 (not_le.2 hlt)⟩
          simp only [Option.some.injEq] at hb'
          have := (hy.1 _ hpi).2
          linarith
        · rename_i hlt
          refine ⟨_, _, rfl, fun _ j hj1 hj2 hj => ?_, by simp⟩
          rcases hj with hj | rfl
          · exact hV j hj1 hj2 hj
          · exact ⟨not_lt.1 hlt, not_lt.1 hgt⟩)
    (by intro V W s h hV j hj1 hj2 hj; exact hV j hj1 hj2 ((h j hj1 hj2).2 hj))
  have hr1' : rrLoop 0 o0.nwpass (o0.passBody xc) o0.nwpass.toNat o0.idx1 () = .ok (r1, i1, ()) := by
    rw [← hr1, hof.pass, sub_zero]
  have hidx1 : -1 ≤ i1 ∧ (0 < d.pass → i1 < d.pass) := by
    by_cases hp : 0 < d.pass
    · have := hi1 (by omega)
      exact ⟨by omega, fun _ => this.2⟩
    · have := hi1' (by omega)
      exact ⟨by rw [this]; exact ho.idx1.1, fun h => absurd h hp⟩
  have hmdim : ((o0.spectrum.length : Nat) : Int) = (d.m : Int) := by rw [hof.len]
  have hc00 : nthI32 o0.spectrum 0 = .ok col0 := hc0
  cases r1 with
  | some cut =>
    obtain ⟨-, -, hq, hnf⟩ := hs1 cut rfl
    refine ⟨some cut, { o0 with idx1 := i1 }, ?_,
      ⟨ho.dim, ho.len, ho.rows, ho.pass, ho.stop, ho.lp, ho.up, ho.sp, hidx1, ho.idx2, ho.idx3⟩, ?_, ?_, by simp, by simp⟩
    · unfold LowpassOracle.assessFeas
      show (nthI32 o0.spectrum 0 >>= fun first => _) = _
      rw [hc00, Res.ok_bind]
      show (rrLoop 0 o0.nwpass (o0.passBody xc) o0.nwpass.toNat o0.idx1 () >>= fun p => _) = _
      rw [hr1', Res.ok_bind]
    · simp [hnf]
    · intro c hc
      obtain rfl : cut = c := by simpa using hc
      exact hq
  | none =>
    have hpass := hn1 rfl
    set o1 : LowpassOracle ℝ := { o0 with idx1 := i1 } with ho1
    have hof1 : o1.For d n σ :=
      ⟨ho.dim, ho.len, ho.rows, ho.pass, ho.stop, ho.lp, ho.up, ho.sp, hidx1, ho.idx2, ho.idx3⟩
    -- stopband
    obtain ⟨r3, i3, ⟨fm, km⟩, hr3, hi3, hi3', hn3, hs3⟩ := rrLoop_spec (lo := (d.stop : Int)) (hi := (d.m : Int))
      (body := o1.stopBody xc)
      (fun V st => (∀ j : Int, (d.stop : Int) ≤ j → j < d.m → V j →
          0 ≤ lpResponse x (d.freq j.toNat) ∧ lpResponse x (d.freq j.toNat) ≤ σ) ∧
        ((st = (none, -1) ∧ ∀ j : Int, (d.stop : Int) ≤ j → j < d.m → ¬ V j) ∨
          (∃ k : Nat, d.stop ≤ k ∧ k < d.m ∧ st.2 = (k : Int) ∧ st.1 = some (lpResponse x (d.freq k)) ∧
            ∀ j : Int, (d.stop : Int) ≤ j → j < d.m → V j → lpResponse x (d.freq j.toNat) ≤ lpResponse x (d.freq k))))
      (fun _ b _ => LpCut (d.feasible σ) x b ∧ x ∉ d.feasible σ) (idx := o.idx3) (s := (none, -1))
      (by have := ho.idx3.1; omega) (by intro h; exact ho.idx3.2 (by omega))
      ⟨by intro j _ _ h; exact h.elim, Or.inl ⟨rfl, fun j _ _ h => h⟩⟩
      (by
        rintro V i ⟨fm, km⟩ hlo hhi ⟨hV, hM⟩
        obtain ⟨col, hc1, hc2⟩ := lp_col hof1 (i := i) (by omega) (by omega)
        simp only [LowpassOracle.stopBody, hc1, Res.ok_bind, hval hc2, hof1.sp, Scalar.real_gt, Scalar.real_lt,
          decide_eq_true_eq]
        have hsi : d.stop ≤ i.toNat := by omega
        have hmi : i.toNat < d.m := by omega
        split
        · rename_i hgt
          refine ⟨_, _, rfl, by simp, fun b hb => ?_⟩
          simp only [Option.some.injEq] at hb
          subst hb
          refine ⟨lpCut_pos ho.dim hc2 hgt (fun y hy => (hy.2.1 _ hsi hmi).2) fun b' hb' y hy => ?_,
            fun hf => absurd (hf.2.1 _ hsi hmi).2 (not_le.2 hgt)⟩
          simp only [Option.some.injEq] at hb'
          have := (hy.2.1 _ hsi hmi).1
          linarith
        · rename_i hgt
          split
          · rename_i hlt
            refine ⟨_, _, rfl, by simp, fun b hb => ?_⟩
            simp only [Option.some.injEq] at hb
            subst hb
            refine ⟨lpCut_neg ho.dim hc2 (by ring) hlt (fun y hy => (hy.2.1 _ hsi hmi).1) fun b' hb' y hy => ?_,
              fun hf => absurd (hf.2.1 _ hsi hmi).1 (not_le.2 hlt)⟩
            simp only [Option.some.injEq] at hb'
            have := (hy.2.1 _ hsi hmi).2
            linarith
          · rename_i hlt
            have hV' : ∀ j : Int, (d.stop : Int) ≤ j → j < d.m → (V j ∨ j = i) →
                0 ≤ lpResponse x (d.freq j.toNat) ∧ lpResponse x (d.freq j.toNat) ≤ σ := by
              intro j hj1 hj2 hj
              rcases hj with hj | rfl
              · exact hV j hj1 hj2 hj
              · exact ⟨not_lt.1 hlt, not_lt.1 hgt⟩
            have hcast : i = ((i.toNat : Nat) : Int) := by omega
            split
            · rename_i hnew
              refine ⟨_, _, rfl, fun _ => ⟨hV', Or.inr ⟨i.toNat, hsi, hmi, hcast, rfl, ?_⟩⟩, by simp⟩
              intro j hj1 hj2 hj
              rcases hj with hj | rfl
              · rcases hM with ⟨-, hM⟩ | ⟨k, -, -, -, hk, hM⟩
                · exact absurd hj (hM j hj1 hj2)
                · simp only at hk
                  rw [hk] at hnew
                  simp only [gtFmax, Scalar.real_gt, decide_eq_true_eq] at hnew
                  exact (hM j hj1 hj2 hj).trans hnew.le
              · exact le_rfl
            · rename_i hnew
              refine ⟨_, _, rfl, fun _ => ⟨hV', ?_⟩, by simp⟩
              rcases hM with ⟨hk, -⟩ | ⟨k, hk1, hk2, hk3, hk, hM⟩
              · simp only [Prod.mk.injEq] at hk
                rw [hk.1] at hnew
                simp [gtFmax] at hnew
              · refine Or.inr ⟨k, hk1, hk2, hk3, hk, fun j hj1 hj2 hj => ?_⟩
                rcases hj with hj | rfl
                · exact hM j hj1 hj2 hj
                · simp only at hk
                  rw [hk] at hnew
                  simp only [gtFmax, Scalar.real_gt, decide_eq_true_eq] at hnew
                  exact not_lt.1 hnew)
      (by
        rintro V W ⟨fm, km⟩ h ⟨hV, hM⟩
        refine ⟨fun j hj1 hj2 hj => hV j hj1 hj2 ((h j hj1 hj2).2 hj), ?_⟩
        rcases hM with ⟨hk, hM⟩ | ⟨k, hk1, hk2, hk3, hk, hM⟩
        · exact Or.inl ⟨hk, fun j hj1 hj2 hj => hM j hj1 hj2 ((h j hj1 hj2).2 hj)⟩
        · exact Or.inr ⟨k, hk1, hk2, hk3, hk, fun j hj1 hj2 hj => hM j hj1 hj2 ((h j hj1 hj2).2 hj)⟩)
    have hr3' : rrLoop o1.nwstop (d.m : Int) (o1.stopBody xc) ((d.m : Int) - o1.nwstop).toNat o1.idx3 (none, -1) =
        .ok (r3, i3, (fm, km)) := by
      rw [← hr3, hof1.stop]
    have hidx3 : (d.stop : Int) - 1 ≤ i3 ∧ (d.stop < d.m → i3 < d.m) := by
      by_cases hp : d.stop < d.m
      · have := hi3 (by omega)
        exact ⟨by omega, fun _ => this.2⟩
      · have := hi3' (by omega)
        exact ⟨by rw [this]; exact ho.idx3.1, fun h => absurd h hp⟩
    set o2 : LowpassOracle ℝ := { o1 with idx3 := i3, fmax := fm, kmax := km } with ho2
    have hof2 : o2.For d n σ :=
      ⟨ho.dim, ho.len, ho.rows, ho.pass, ho.stop, ho.lp, ho.up, ho.sp, hidx1, ho.idx2, hidx3⟩
    cases r3 with
    | some cut =>
      obtain ⟨-, -, hq, hnf⟩ := hs3 cut rfl
      refine ⟨some cut, o2, ?_, hof2, ?_, ?_, by simp, by simp⟩
      · unfold LowpassOracle.assessFeas
        show (nthI32 o0.spectrum 0 >>= fun first => _) = _
        rw [hc00, Res.ok_bind]
        show (rrLoop 0 o0.nwpass (o0.passBody xc) o0.nwpass.toNat o0.idx1 () >>= fun p => _) = _
        rw [hr1', Res.ok_bind]
        show (rrLoop o1.nwstop ((o0.spectrum.length : Nat) : Int) (o1.stopBody xc) (((o0.spectrum.length : Nat) : Int) - o1.nwstop).toNat o1.idx3 (none, -1) >>= fun p => _) = _
        rw [hmdim, hr3', Res.ok_bind]
      · simp [hnf]
      · intro c hc
        obtain rfl : cut = c := by simpa using hc
        exact hq
    | none =>
      have hstop := hn3 rfl
      -- transition band
      obtain ⟨r2, i2, ⟨⟩, hr2, hi2, hi2', hn2, hs2⟩ := rrLoop_spec (lo := (d.pass : Int)) (hi := (d.stop : Int))
        (body := o2.transBody xc)
        (fun V _ => ∀ j : Int, (d.pass : Int) ≤ j → j < d.stop → V j → 0 ≤ lpResponse x (d.freq j.toNat))
        (fun _ b _ => LpCut (d.feasible σ) x b ∧ x ∉ d.feasible σ) (idx := o.idx2) (s := ())
        (by have := ho.idx2.1; omega) (by intro h; exact ho.idx2.2 (by omega)) (by intro j _ _ h; exact h.elim)
        (by
          intro V i s hlo hhi hV
          obtain ⟨col, hc1, hc2⟩ := lp_col hof2 (i := i) (by omega) (by omega)
          simp only [LowpassOracle.transBody, hc1, Res.ok_bind, hval hc2, Scalar.real_lt, decide_eq_true_eq]
          have hpi : d.pass ≤ i.toNat := by omega
          have hsi : i.toNat < d.stop := by omega
          split
          · rename_i hlt
            refine ⟨_, _, rfl, by simp, fun b hb => ?_⟩
            simp only [Option.some.injEq] at hb
            subst hb
            exact ⟨lpCut_neg ho.dim hc2 (by ring) hlt (fun y hy => hy.2.2.1 _ hpi hsi) fun b' hb' => by simp at hb',
              fun hf => absurd (hf.2.2.1 _ hpi hsi) (not_le.2 hlt)⟩
          · rename_i hlt
            refine ⟨_, _, rfl, fun _ j hj1 hj2 hj => ?_, by simp⟩
            rcases hj with hj | rfl
            · exact hV j hj1 hj2 hj
            · exact not_lt.1 hlt)
        (by intro V W s h hV j hj1 hj2 hj; exact hV j hj1 hj2 ((h j hj1 hj2).2 hj))
      have hr2' : rrLoop o2.nwpass o2.nwstop (o2.transBody xc) (o2.nwstop - o2.nwpass).toNat o2.idx2 () =
          .ok (r2, i2, ()) := by
        rw [← hr2, hof2.stop, hof2.pass]
      have hidx2 : (d.pass : Int) - 1 ≤ i2 ∧ (d.pass < d.stop → i2 < d.stop) := by
        by_cases hp : d.pass < d.stop
        · have := hi2 (by omega)
          exact ⟨by omega, fun _ => this.2⟩
        · have := hi2' (by omega)
          exact ⟨by rw [this]; exact ho.idx2.1, fun h => absurd h hp⟩
      set o3 : LowpassOracle ℝ := { o2 with idx2 := i2 } with ho3
      have hof3 : o3.For d n σ :=
        ⟨ho.dim, ho.len, ho.rows, ho.pass, ho.stop, ho.lp, ho.up, ho.sp, hidx1, hidx2, hidx3⟩
      cases r2 with
      | some cut =>
        obtain ⟨-, -, hq, hnf⟩ := hs2 cut rfl
        refine ⟨some cut, o3, ?_, hof3, ?_, ?_, by simp, by simp⟩
        · unfold LowpassOracle.assessFeas
          show (nthI32 o0.spectrum 0 >>= fun first => _) = _
          rw [hc00, Res.ok_bind]
          show (rrLoop 0 o0.nwpass (o0.passBody xc) o0.nwpass.toNat o0.idx1 () >>= fun p => _) = _
          rw [hr1', Res.ok_bind]
          show (rrLoop o1.nwstop ((o0.spectrum.length : Nat) : Int) (o1.stopBody xc) (((o0.spectrum.length : Nat) : Int) - o1.nwstop).toNat o1.idx3 (none, -1) >>= fun p => _) = _
          rw [hmdim, hr3', Res.ok_bind]
          show (rrLoop o2.nwpass o2.nwstop (o2.transBody xc) (o2.nwstop - o2.nwpass).toNat o2.idx2 () >>= fun p => _) = _
          rw [hr2', Res.ok_bind]
        · simp [hnf]
        · intro c hc
          obtain rfl : cut = c := by simpa using hc
          exact hq
      | none =>
        have htrans := hn2 rfl
        set o4 : LowpassOracle ℝ := { o3 with moreAlt := false } with ho4
        have hof4 : o4.For d n σ :=
          ⟨ho.dim, ho.len, ho.rows, ho.pass, ho.stop, ho.lp, ho.up, ho.sp, hidx1, hidx2, hidx3⟩
        have hx0 : xc.idx 0 = .ok (x ⟨0, ho.dim⟩) := hxv.idx ⟨0, ho.dim⟩
        by_cases hneg : x ⟨0, ho.dim⟩ < 0
        · obtain ⟨g, hg1, hg2⟩ := (rv_new (n := n)).isVec.setIdx ho.dim (-1)
          have hg : RV g (-Pi.single (⟨0, ho.dim⟩ : Fin n) (1 : ℝ)) := by
            refine RV.of_isVec hg2 fun j => ?_
            by_cases hj : j = ⟨0, ho.dim⟩
            · subst hj; simp [upd1]
            · have : (j : Nat) ≠ 0 := fun h => hj (Fin.ext h)
              simp [upd1, this, hj]
          have hnf : x ∉ d.feasible σ := fun hf => absurd (hf.2.2.2 ⟨0, ho.dim⟩ rfl) (not_le.2 hneg)
          refine ⟨some (g, ⟨-x ⟨0, ho.dim⟩, none⟩), o4, ?_, hof4, by simp [hnf], ?_, by simp, by simp⟩
          · unfold LowpassOracle.assessFeas
            show (nthI32 o0.spectrum 0 >>= fun first => _) = _
            rw [hc00, Res.ok_bind]
            show (rrLoop 0 o0.nwpass (o0.passBody xc) o0.nwpass.toNat o0.idx1 () >>= fun p => _) = _
            rw [hr1', Res.ok_bind]
            show (rrLoop o1.nwstop ((o0.spectrum.length : Nat) : Int) (o1.stopBody xc) (((o0.spectrum.length : Nat) : Int) - o1.nwstop).toNat o1.idx3 (none, -1) >>= fun p => _) = _
            rw [hmdim, hr3', Res.ok_bind]
            show (rrLoop o2.nwpass o2.nwstop (o2.transBody xc) (o2.nwstop - o2.nwpass).toNat o2.idx2 () >>= fun p => _) = _
            rw [hr2', Res.ok_bind]
            show (xc.idx 0 >>= fun p => _) = _
            rw [hx0, Res.ok_bind]
            simp only [Scalar.real_lt, decide_eq_true_eq, if_pos hneg, hlen0, hg1, Res.ok_bind]
            rfl
          · intro c hc
            obtain rfl : _ = c := by simpa using hc
            refine ⟨hg.1, by simp only; linarith, fun y hy => ?_, ?_⟩
            · simp only [hg.2, neg_dotProduct, single_dotProduct, one_mul, Pi.sub_apply]
              have := hy.2.2.2 ⟨0, ho.dim⟩ rfl
              exact ⟨by linarith, by simp⟩
            · simp only [hg.2, normSq_neg']
              simp [normSq]
        · have hf : x ∈ d.feasible σ := by
            refine ⟨fun i hi => ?_, fun i h1 h2 => ?_, fun i h1 h2 => ?_, fun j hj => ?_⟩
            · have := hpass i (by omega) (by omega) ⟨by omega, by omega⟩
              simpa using this
            · have := hstop.1 i (by omega) (by omega) ⟨by omega, by omega⟩
              simpa using this
            · have := htrans i (by omega) (by omega) ⟨by omega, by omega⟩
              simpa using this
            · have : j = ⟨0, ho.dim⟩ := Fin.ext hj
              rw [this]; exact not_lt.1 hneg
          refine ⟨none, o4, ?_, hof4, by simp [hf], by simp, fun _ hsm => ?_, fun _ hsm => ?_⟩
          · unfold LowpassOracle.assessFeas
            show (nthI32 o0.spectrum 0 >>= fun first => _) = _
            rw [hc00, Res.ok_bind]
            show (rrLoop 0 o0.nwpass (o0.passBody xc) o0.nwpass.toNat o0.idx1 () >>= fun p => _) = _
            rw [hr1', Res.ok_bind]
            show (rrLoop o1.nwstop ((o0.spectrum.length : Nat) : Int) (o1.stopBody xc) (((o0.spectrum.length : Nat) : Int) - o1.nwstop).toNat o1.idx3 (none, -1) >>= fun p => _) = _
            rw [hmdim, hr3', Res.ok_bind]
            show (rrLoop o2.nwpass o2.nwstop (o2.transBody xc) (o2.nwstop - o2.nwpass).toNat o2.idx2 () >>= fun p => _) = _
            rw [hr2', Res.ok_bind]
            show (xc.idx 0 >>= fun p => _) = _
            rw [hx0, Res.ok_bind]
            simp only [Scalar.real_lt, decide_eq_true_eq, if_neg hneg]
            rfl
          · rcases hstop.2 with ⟨-, h⟩ | ⟨k, hk1, hk2, hk3, hk, hM⟩
            · exact absurd ⟨le_rfl, by omega⟩ (h d.stop le_rfl (by omega))
            · refine ⟨k, hk1, hk2, hk3, hk, fun i h1 h2 => ?_⟩
              have := hM i (by omega) (by omega) ⟨by omega, by omega⟩
              simpa using this
          · rcases hstop.2 with ⟨h, -⟩ | ⟨k, hk1, hk2, -⟩
            · simp only [Prod.mk.injEq] at h
              exact h.2
            · omega

/-- **C45** One feasibility query, with the hidden counters anywhere in their ranges: no panic, the counters stay in
range, and the answer is "feasible" exactly when all constraints hold. -/
theorem C45_lowpass_accepts (hd : d.Ok) {σ : ℝ} (o : LowpassOracle ℝ) (ho : o.For d n σ) (xc : Arr ℝ)
    (hx : xc.IsVecShape n) :
    ∃ r o', LowpassOracle.oracleFeas.assess o xc = .ok (r, o') ∧ o'.For d n σ ∧
      (r = none ↔ xc.toVec n ∈ d.feasible σ) := by
  obtain ⟨r, o', h1, h2, h3, -⟩ := lp_assessFeas hd o ho xc hx
  exact ⟨r, o', h1, h2, h3⟩

/-- **C46** Every cut returned by a feasibility query is violated at the query point and satisfied, in both planes, by
every feasible filter. -/
theorem C46_lowpass_cut (hd : d.Ok) {σ : ℝ} (o : LowpassOracle ℝ) (ho : o.For d n σ) (xc : Arr ℝ)
    (hx : xc.IsVecShape n) {g : Arr ℝ} {b0 : ℝ} {b1 : Option ℝ} {o' : LowpassOracle ℝ}
    (h : LowpassOracle.oracleFeas.assess o xc = .ok (some (g, ⟨b0, b1⟩), o')) :
    g.IsVecShape n ∧ 0 < b0 ∧ ∀ y ∈ d.feasible σ, g.toVec n ⬝ᵥ (y - xc.toVec n) + b0 ≤ 0 ∧
      ∀ b, b1 = some b → 0 ≤ g.toVec n ⬝ᵥ (y - xc.toVec n) + b := by
  obtain ⟨r, o1, h1, -, -, h4, -⟩ := lp_assessFeas hd o ho xc hx
  have h' : o.assessFeas xc = .ok (some (g, ⟨b0, b1⟩), o') := h
  rw [h1] at h'
  simp only [Res.ok.injEq, Prod.mk.injEq] at h'
  have hc := h4 _ h'.1
  exact ⟨hc.shape, hc.violated, hc.keeps⟩

/-- **C46** One optimisation query with current stopband bound `γ`, nonempty stopband: improvement is reported exactly at
the filters meeting the specification with bound `γ`; then `γ'` is the largest stopband value at `x`, and the central
parallel cut keeps every filter meeting the specification with bound `γ'`.  Otherwise `γ` is unchanged and the cut is
violated at `x` and keeps every filter meeting the specification with bound `γ`. -/
theorem C46_lowpass_optim (hd : d.Ok) (hs : d.stop < d.m) {σ : ℝ} (o : LowpassOracle ℝ) (ho : o.For d n σ) (xc : Arr ℝ)
    (hx : xc.IsVecShape n) (γ : ℝ) :
    ∃ g b0 b1 shrunk γ' o', LowpassOracle.oracle.assess o xc γ = .ok (((g, ⟨b0, b1⟩), shrunk), γ', o') ∧
      o'.For d n γ ∧ g.IsVecShape n ∧ 1 ≤ normSq (g.toVec n) ∧ γ' ≤ γ ∧
      (shrunk = true ↔ xc.toVec n ∈ d.feasible γ) ∧
      (shrunk = true → b0 = 0 ∧
        (∃ k, d.stop ≤ k ∧ k < d.m ∧ γ' = lpResponse (xc.toVec n) (d.freq k)) ∧
        (∀ i, d.stop ≤ i → i < d.m → lpResponse (xc.toVec n) (d.freq i) ≤ γ') ∧
        ∀ y ∈ d.feasible γ', g.toVec n ⬝ᵥ (y - xc.toVec n) ≤ 0 ∧
          ∀ b, b1 = some b → 0 ≤ g.toVec n ⬝ᵥ (y - xc.toVec n) + b) ∧
      (shrunk = false → γ' = γ ∧ 0 < b0 ∧ ∀ y ∈ d.feasible γ, g.toVec n ⬝ᵥ (y - xc.toVec n) + b0 ≤ 0 ∧
        ∀ b, b1 = some b → 0 ≤ g.toVec n ⬝ᵥ (y - xc.toVec n) + b) := by
  have hof : ({ o with spSq := γ } : LowpassOracle ℝ).For d n γ :=
    ⟨ho.dim, ho.len, ho.rows, ho.pass, ho.stop, ho.lp, ho.up, rfl, ho.idx1, ho.idx2, ho.idx3⟩
  obtain ⟨r, o1, h1, h2, h3, h4, h5, -⟩ := lp_assessFeas hd _ hof xc hx
  cases r with
  | some cut =>
    obtain ⟨g, b0, b1⟩ := cut
    have hc := h4 _ rfl
    refine ⟨g, b0, b1, false, γ, o1, ?_, h2, hc.shape, hc.size, le_rfl, by simp [← h3], by simp,
      fun _ => ⟨rfl, hc.violated, hc.keeps⟩⟩
    simp only [LowpassOracle.oracle, LowpassOracle.assess, h1, Res.ok_bind]
  | none =>
    obtain ⟨k, hk1, hk2, hk3, hk4, hk5⟩ := h5 rfl hs
    have hf := h3.1 rfl
    obtain ⟨col, hc1, hc2⟩ := lp_col h2 (i := (k : Int)) (by omega) (by omega)
    rw [Int.toNat_natCast] at hc2
    refine ⟨col, 0, some (lpResponse (xc.toVec n) (d.freq k)), true, lpResponse (xc.toVec n) (d.freq k), o1, ?_, h2, hc2.1,
      by rw [hc2.2]; exact lpRow_norm ho.dim k, (hf.2.1 k hk1 hk2).2, by simp [hf],
      fun _ => ⟨rfl, ⟨k, hk1, hk2, rfl⟩, hk5, fun y hy => ?_⟩, by simp⟩
    · simp only [LowpassOracle.oracle, LowpassOracle.assess, h1, Res.ok_bind, hk3, hc1, hk4, Res.ofOption]
    · rw [hc2.2, lpRow_dot, lpResponse_sub]
      have := hy.2.1 k hk1 hk2
      refine ⟨by linarith, fun b hb => ?_⟩
      simp only [Option.some.injEq] at hb
      linarith

/-- **C46** (limitation) With an empty stopband (`wstop` so close to 1 that `nwstop` is the number of grid points) an
optimisation query at a feasible filter panics: index `-1` into the table. -/
theorem C46_lowpass_empty_stopband (hd : d.Ok) (hs : d.stop = d.m) {σ : ℝ} (o : LowpassOracle ℝ) (ho : o.For d n σ)
    (xc : Arr ℝ) (hx : xc.IsVecShape n) (γ : ℝ) (hf : xc.toVec n ∈ d.feasible γ) :
    LowpassOracle.oracle.assess o xc γ = .panic := by
  have hof : ({ o with spSq := γ } : LowpassOracle ℝ).For d n γ :=
    ⟨ho.dim, ho.len, ho.rows, ho.pass, ho.stop, ho.lp, ho.up, rfl, ho.idx1, ho.idx2, ho.idx3⟩
  obtain ⟨r, o1, h1, h2, h3, -, -, h6⟩ := lp_assessFeas hd _ hof xc hx
  have hr := h3.2 hf
  subst hr
  simp only [LowpassOracle.oracle, LowpassOracle.assess, h1, Res.ok_bind, h6 rfl hs]
  rfl

/-- the data a constructor call stands for -/
noncomputable def lpOf (n : Nat) (wpass wstop lp up : ℝ) : LpData :=
  ⟨15 * n, ⌊wpass * ((15 * n - 1 : Nat) : ℝ)⌋₊ + 1, ⌊wstop * ((15 * n - 1 : Nat) : ℝ)⌋₊ + 1, lp, up⟩

/-- **C45** `LowpassOracle::new` with `n ≥ 1` and `0 ≤ wpass ≤ wstop ≤ 1` never panics and sets up the design problem on
`15 n` grid points: passband `i ≤ wpass (15n-1)`, stopband `i > wstop (15n-1)`. -/
theorem C45_lowpass_new (hn : 0 < n) (wpass wstop lp up sp : ℝ) (h0 : 0 ≤ wpass) (h1 : wpass ≤ wstop) (h2 : wstop ≤ 1) :
    ∃ o, LowpassOracle.new n wpass wstop lp up sp = .ok o ∧ o.For (lpOf n wpass wstop lp up) n sp ∧
      (lpOf n wpass wstop lp up).Ok ∧ (wstop < 1 → (lpOf n wpass wstop lp up).stop < 15 * n) ∧
      (∀ i, i < (lpOf n wpass wstop lp up).pass ↔ (i : ℝ) ≤ wpass * ((15 * n - 1 : Nat) : ℝ)) ∧
      (∀ i, (lpOf n wpass wstop lp up).stop ≤ i ↔ wstop * ((15 * n - 1 : Nat) : ℝ) < (i : ℝ)) := by
  have hrow : ∀ om : ℝ, ∃ row, lowpassRow n om = .ok row ∧
      RV row (fun j : Fin n => if (j : Nat) = 0 then 1 else 2 * Real.cos (om * j)) := by
    intro om
    obtain ⟨r0, hr0, hr0'⟩ := (rv_new (n := n)).isVec.setIdx hn 1
    obtain ⟨row, h1, h2⟩ := forRange_spec (σ := Arr ℝ)
      (fun k z => IsVec z n (fun j => if j = 0 then 1 else if j < k then 2 * Real.cos (om * j) else 0))
      (f := fun j row => row.setIdx j (nat 2 * Scalar.cos (om * nat j))) (s := r0) (lo := 1) (hi := n) (by omega)
      (by
        refine hr0'.congr fun i hi => ?_
        by_cases hi0 : i = 0
        · subst hi0; simp [upd1]
        · have : ¬ i < 1 := by omega
          simp [upd1, hi0, ext0, this])
      (by
        intro j z hj1 hj2 hz
        obtain ⟨z', a, b⟩ := hz.setIdx hj2 (nat 2 * Scalar.cos (om * nat j))
        refine ⟨z', a, b.congr fun i hi => ?_⟩
        by_cases hij : i = j
        · subst hij
          have : i ≠ 0 := by omega
          simp [upd1, this, nat]
        · have : (i < j + 1) ↔ i < j := by omega
          simp [upd1, hij, this])
    refine ⟨row, ?_, RV.of_isVec h2 fun j => ?_⟩
    · rw [lowpassRow, hr0]; exact h1
    · simp only [j.2, if_true]
  obtain ⟨om, hom1, hom2, hom3, hom4⟩ := C44_linspace 0 Real.pi (15 * n)
  choose rowf hrow1 hrow2 using hrow
  have hm : 2 ≤ 15 * n := by omega
  have hcast : ((15 * n - 1 : Nat) : ℝ) = ((15 * n : Nat) : ℝ) - 1 := by rw [Nat.cast_sub (by omega)]; simp
  have hvec : ∀ i, i < 15 * n → om.vec i = Real.pi / ((15 * n - 1 : Nat) : ℝ) * i := by
    intro i
    induction i with
    | zero => intro _; rw [hom3 (by omega)]; simp
    | succ i ih =>
      intro hi
      have a := (hom4 hm).2 i hi
      rw [sub_eq_iff_eq_add, ih (by omega), sub_zero, ← hcast] at a
      rw [a]; push_cast; ring
  have hidx : ∀ i, i < 15 * n → om.idx i = .ok (om.vec i) := fun i hi => hom2.isVec.idx hi
  have hspec : ((List.range (15 * n)).mapM fun i => do
      let o ← om.idx i
      lowpassRow n o) = .ok ((List.range (15 * n)).map fun i => rowf (om.vec i)) := by
    refine mapM_range_ok (15 * n) fun i hi => ?_
    rw [hidx i hi]
    exact hrow1 _
  have hM : (0 : ℝ) ≤ ((15 * n - 1 : Nat) : ℝ) := Nat.cast_nonneg _
  have hM1 : (0 : ℝ) < ((15 * n - 1 : Nat) : ℝ) := by exact_mod_cast (show 0 < 15 * n - 1 by omega)
  have hp0 : 0 ≤ wpass * ((15 * n - 1 : Nat) : ℝ) := by positivity
  have hs0 : 0 ≤ wstop * ((15 * n - 1 : Nat) : ℝ) := mul_nonneg (h0.trans h1) hM
  have hps : wpass * ((15 * n - 1 : Nat) : ℝ) ≤ wstop * ((15 * n - 1 : Nat) : ℝ) := by gcongr
  have hsm : wstop * ((15 * n - 1 : Nat) : ℝ) ≤ ((15 * n - 1 : Nat) : ℝ) := by nlinarith
  have fl : ∀ t : ℝ, 0 ≤ t → ⌊t⌋ = ((⌊t⌋₊ : Nat) : Int) := fun t ht => (Int.natCast_floor_eq_floor ht).symm
  refine ⟨⟨true, -1, (List.range (15 * n)).map fun i => rowf (om.vec i), ⌊wpass * ((15 * n - 1 : Nat) : ℝ)⌋ + 1,
      ⌊wstop * ((15 * n - 1 : Nat) : ℝ)⌋ + 1, lp, up, sp, ⌊wpass * ((15 * n - 1 : Nat) : ℝ)⌋ + 1 - 1,
      ⌊wstop * ((15 * n - 1 : Nat) : ℝ)⌋ + 1 - 1, none, -1⟩,
    ?_, ⟨hn, ?_, ?_, ?_, ?_, ?_, ?_, ?_, ?_, ?_, ?_⟩, ⟨?_, ?_, hm⟩, ?_, ?_, ?_⟩
  · rw [LowpassOracle.new]
    simp only [Scalar.real_pi, hom1, Res.ok_bind, hspec]
    rw [show decide (0 < 15 * n) = true by simp; omega]
    simp only [Res.assert_true, Res.ok_bind]
    rfl
  · simp [lpOf]
  · intro i hi
    simp only [List.length_map, List.length_range] at hi
    simp only [List.getElem_map, List.getElem_range]
    have := hrow2 (om.vec i)
    rw [hvec i hi] at this ⊢
    exact this
  · simp only [Scalar.real_floorI32, lpOf, Nat.cast_add, Nat.cast_one]
    rw [← fl _ hp0]
  · simp only [Scalar.real_floorI32, lpOf, Nat.cast_add, Nat.cast_one]
    rw [← fl _ hs0]
  · rfl
  · rfl
  · rfl
  · exact ⟨le_rfl, fun _ => by simp only [lpOf]; omega⟩
  · simp only [Scalar.real_floorI32, lpOf, Nat.cast_add, Nat.cast_one]
    rw [← fl _ hp0]
    have : ⌊wpass * ((15 * n - 1 : Nat) : ℝ)⌋ ≤ ⌊wstop * ((15 * n - 1 : Nat) : ℝ)⌋ := Int.floor_le_floor hps
    rw [← fl _ hs0]
    exact ⟨le_rfl, fun _ => by omega⟩
  · simp only [Scalar.real_floorI32, lpOf, Nat.cast_add, Nat.cast_one]
    rw [← fl _ hs0]
    refine ⟨le_rfl, fun h => ?_⟩
    have : ⌊wstop * ((15 * n - 1 : Nat) : ℝ)⌋ = ((⌊wstop * ((15 * n - 1 : Nat) : ℝ)⌋₊ : Nat) : Int) := fl _ hs0
    omega
  · simp only [lpOf]
    have := Nat.floor_le_floor hps
    omega
  · simp only [lpOf]
    have : ⌊wstop * ((15 * n - 1 : Nat) : ℝ)⌋₊ ≤ 15 * n - 1 := Nat.floor_le_of_le hsm
    omega
  · intro hlt
    simp only [lpOf]
    have : ⌊wstop * ((15 * n - 1 : Nat) : ℝ)⌋₊ < 15 * n - 1 := by
      rw [Nat.floor_lt hs0]
      nlinarith
    omega
  · intro i
    simp only [lpOf]
    rw [Nat.lt_succ_iff, Nat.le_floor_iff hp0]
  · intro i
    simp only [lpOf]
    rw [Nat.succ_le_iff, Nat.floor_lt hs0]

end Ellalgo

import Verif.Spec.RoundedLowpass
import Verif.Props.LowpassProps
import Verif.Props.RoundedProps
import Verif.Props.RoundedPlane

/-! Property C88: the low-pass oracle in rounded arithmetic. -/

namespace Ellalgo
open Matrix

variable {u : ℝ} {R : Rounding u} {n : Nat} {d : LpData} {ε : ℝ}

/-- The five kinds of cut, given the computed response `V` at the grid points. -/
inductive LpForm (o : LowpassOracle (Fl R)) (d : LpData) (n : Nat) (V : Nat → Fl R) (xc : Arr (Fl R)) :
    Arr (Fl R) × ParallelCut (Fl R) → Prop
  | over (i : Nat) (col : Arr (Fl R)) (h : i < d.pass) (hc : o.spectrum[i]? = some col) (hv : o.upSq.val < (V i).val) :
      LpForm o d n V xc (col, ⟨V i - o.upSq, some (V i - o.lpSq)⟩)
  | under (i : Nat) (col : Arr (Fl R)) (h : i < d.pass) (hc : o.spectrum[i]? = some col) (hv : (V i).val < o.lpSq.val) :
      LpForm o d n V xc (negVec col, ⟨-V i + o.lpSq, some (-V i + o.upSq)⟩)
  | high (i : Nat) (col : Arr (Fl R)) (h1 : d.stop ≤ i) (h : i < d.m) (hc : o.spectrum[i]? = some col)
      (hv : o.spSq.val < (V i).val) : LpForm o d n V xc (col, ⟨V i - o.spSq, some (V i)⟩)
  | low (i : Nat) (col : Arr (Fl R)) (h1 : d.stop ≤ i) (h : i < d.m) (hc : o.spectrum[i]? = some col)
      (hv : (V i).val < 0) : LpForm o d n V xc (negVec col, ⟨-V i, some (-V i + o.spSq)⟩)
  | trans (i : Nat) (col : Arr (Fl R)) (h1 : d.pass ≤ i) (h : i < d.stop) (hc : o.spectrum[i]? = some col)
      (hv : (V i).val < 0) : LpForm o d n V xc (negVec col, ⟨-V i, none⟩)
  | first (g : Arr (Fl R)) (hg : (Arr.new n : Arr (Fl R)).setIdx 0 (-1) = .ok g) (hv : (xc.vec 0).val < 0) :
      LpForm o d n V xc (g, ⟨-xc.vec 0, none⟩)

theorem lpFl_assessFeas (hd : d.Ok) (o : LowpassOracle (Fl R)) (ho : o.FlFor d n ε) (xc : Arr (Fl R))
    (hx : xc.IsVecShape n) (V : Nat → Fl R) (hV : ∀ i (h : i < o.spectrum.length), (o.spectrum[i]).dot xc = .ok (V i)) :
    ∃ r o', o.assessFeas xc = .ok (r, o') ∧ o'.FlFor d n ε ∧ o'.spectrum = o.spectrum ∧ o'.spSq = o.spSq ∧
      (r = none → (∀ i < d.pass, o.lpSq.val ≤ (V i).val ∧ (V i).val ≤ o.upSq.val) ∧
        (∀ i, d.stop ≤ i → i < d.m → 0 ≤ (V i).val ∧ (V i).val ≤ o.spSq.val) ∧
        (∀ i, d.pass ≤ i → i < d.stop → 0 ≤ (V i).val) ∧ 0 ≤ (xc.vec 0).val) ∧
      (∀ cut, r = some cut → LpForm o d n V xc cut) ∧
      (r = none → d.stop < d.m → ∃ k, d.stop ≤ k ∧ k < d.m ∧ o'.kmax = (k : Int) ∧ o'.fmax = some (V k) ∧
        ∀ i, d.stop ≤ i → i < d.m → (V i).val ≤ (V k).val) := by
  have h1 := hd.order
  have h2 := hd.inside
  have h3 := hd.grid
  have hcol : ∀ {i : Int}, 0 ≤ i → i < d.m → ∃ col, nthI32 o.spectrum i = .ok col ∧ o.spectrum[i.toNat]? = some col ∧
      col.dot xc = .ok (V i.toNat) := by
    intro i h0 hi
    have hlt : i.toNat < o.spectrum.length := by rw [ho.len]; omega
    refine ⟨o.spectrum[i.toNat], ?_, List.getElem?_eq_getElem hlt, hV _ hlt⟩
    rw [nthI32, if_pos h0, List.getElem?_eq_getElem hlt]
    rfl
  obtain ⟨col0, hc0, hc0', -⟩ := hcol (i := 0) le_rfl (by omega)
  have hlen0 : col0.len = n := by
    have hlt : 0 < o.spectrum.length := by rw [ho.len]; omega
    have := ho.shape 0 hlt
    rw [show ((0 : Int).toNat) = 0 from rfl, List.getElem?_eq_getElem hlt] at hc0'
    simp only [Option.some.injEq] at hc0'
    rw [← hc0']; exact this.2.2
  have hFl : ∀ (b : Bool) (i1 i2 i3 : Int) (fm : Option (Fl R)) (km : Int), (-1 ≤ i1 ∧ (0 < d.pass → i1 < d.pass)) →
      ((d.pass : Int) - 1 ≤ i2 ∧ (d.pass < d.stop → i2 < d.stop)) →
      ((d.stop : Int) - 1 ≤ i3 ∧ (d.stop < d.m → i3 < d.m)) →
      ({ o with moreAlt := b, idx1 := i1, idx2 := i2, idx3 := i3, fmax := fm, kmax := km } :
        LowpassOracle (Fl R)).FlFor d n ε := fun b i1 i2 i3 fm km h1 h2 h3 =>
    ⟨ho.dim, ho.len, ho.shape, ho.close, ho.pass, ho.stop, ho.lp, ho.up, h1, h2, h3⟩
  set o0 : LowpassOracle (Fl R) := { o with moreAlt := true } with ho0
  -- passband
  obtain ⟨r1, i1, ⟨⟩, hr1, hi1, hi1', hn1, hs1⟩ := rrLoop_spec (lo := 0) (hi := (d.pass : Int)) (body := o0.passBody xc)
    (fun W _ => ∀ j : Int, 0 ≤ j → j < d.pass → W j → o.lpSq.val ≤ (V j.toNat).val ∧ (V j.toNat).val ≤ o.upSq.val)
    (fun _ b _ => LpForm o d n V xc b) (idx := o.idx1) (s := ())
    (by have := ho.idx1.1; omega) (by intro h; exact ho.idx1.2 (by omega)) (by intro j _ _ h; exact h.elim)
    (by
      intro W i s hlo hhi hW
      obtain ⟨col, hc1, hc2, hc3⟩ := hcol hlo (by omega)
      have hc1' : nthI32 o0.spectrum i = .ok col := hc1
      simp only [LowpassOracle.passBody, hc1', Res.ok_bind, hc3, Scalar.gt, Fl.lt_eq, decide_eq_true_eq]
      have hpi : i.toNat < d.pass := by omega
      split
      · rename_i hgt
        refine ⟨_, _, rfl, by simp, fun b hb => ?_⟩
        simp only [Option.some.injEq] at hb
        subst hb
        exact .over _ _ hpi hc2 hgt
      · rename_i hgt
        split
        · rename_i hlt
          refine ⟨_, _, rfl, by simp, fun b hb => ?_⟩
          simp only [Option.some.injEq] at hb
          subst hb
          exact .under _ _ hpi hc2 hlt
        · rename_i hlt
          refine ⟨_, _, rfl, fun _ j hj1 hj2 hj => ?_, by simp⟩
          rcases hj with hj | rfl
          · exact hW j hj1 hj2 hj
          · exact ⟨not_lt.1 hlt, not_lt.1 hgt⟩)
    (by intro V W s h hV j hj1 hj2 hj; exact hV j hj1 hj2 ((h j hj1 hj2).2 hj))
  have hr1' : rrLoop 0 o0.nwpass (o0.passBody xc) o0.nwpass.toNat o0.idx1 () = .ok (r1, i1, ()) := by
    rw [← hr1, show o0.nwpass = d.pass from ho.pass, sub_zero]
  have hidx1 : -1 ≤ i1 ∧ (0 < d.pass → i1 < d.pass) := by
    by_cases hp : 0 < d.pass
    · have := hi1 (by omega)
      exact ⟨by omega, fun _ => this.2⟩
    · have := hi1' (by omega)
      exact ⟨by rw [this]; exact ho.idx1.1, fun h => absurd h hp⟩
  have hmdim : ((o0.spectrum.length : Nat) : Int) = (d.m : Int) := by rw [← ho.len]
  have hc00 : nthI32 o0.spectrum 0 = .ok col0 := hc0
  cases r1 with
  | some cut =>
    obtain ⟨-, -, hq⟩ := hs1 cut rfl
    refine ⟨some cut, { o0 with idx1 := i1 }, ?_, hFl _ _ _ _ _ _ hidx1 ho.idx2 ho.idx3, rfl, rfl, by simp, ?_, by simp⟩
    · unfold LowpassOracle.assessFeas
      show (nthI32 o0.spectrum 0 >>= fun first => _) = _
      rw [hc00, Res.ok_bind]
      show (rrLoop 0 o0.nwpass (o0.passBody xc) o0.nwpass.toNat o0.idx1 () >>= fun p => _) = _
      rw [hr1', Res.ok_bind]
    · intro c hc
      obtain rfl : cut = c := by simpa using hc
      exact hq
  | none =>
    have hpass := hn1 rfl
    set o1 : LowpassOracle (Fl R) := { o0 with idx1 := i1 } with ho1
    -- stopband
    obtain ⟨r3, i3, ⟨fm, km⟩, hr3, hi3, hi3', hn3, hs3⟩ := rrLoop_spec (lo := (d.stop : Int)) (hi := (d.m : Int))
      (body := o1.stopBody xc)
      (fun W st => (∀ j : Int, (d.stop : Int) ≤ j → j < d.m → W j →
          0 ≤ (V j.toNat).val ∧ (V j.toNat).val ≤ o.spSq.val) ∧
        ((st = (none, -1) ∧ ∀ j : Int, (d.stop : Int) ≤ j → j < d.m → ¬ W j) ∨
          (∃ k : Nat, d.stop ≤ k ∧ k < d.m ∧ st.2 = (k : Int) ∧ st.1 = some (V k) ∧
            ∀ j : Int, (d.stop : Int) ≤ j → j < d.m → W j → (V j.toNat).val ≤ (V k).val)))
      (fun _ b _ => LpForm o d n V xc b) (idx := o.idx3) (s := (none, -1))
      (by have := ho.idx3.1; omega) (by intro h; exact ho.idx3.2 (by omega))
      ⟨by intro j _ _ h; exact h.elim, Or.inl ⟨rfl, fun j _ _ h => h⟩⟩
      (by
        rintro W i ⟨fm, km⟩ hlo hhi ⟨hW, hM⟩
        obtain ⟨col, hc1, hc2, hc3⟩ := hcol (i := i) (by omega) (by omega)
        have hc1' : nthI32 o1.spectrum i = .ok col := hc1
        simp only [LowpassOracle.stopBody, hc1', Res.ok_bind, hc3, Scalar.gt, Fl.lt_eq, decide_eq_true_eq, Fl.zero_val]
        have hsi : d.stop ≤ i.toNat := by omega
        have hmi : i.toNat < d.m := by omega
        split
        · rename_i hgt
          refine ⟨_, _, rfl, by simp, fun b hb => ?_⟩
          simp only [Option.some.injEq] at hb
          subst hb
          exact .high _ _ hsi hmi hc2 hgt
        · rename_i hgt
          split
          · rename_i hlt
            refine ⟨_, _, rfl, by simp, fun b hb => ?_⟩
            simp only [Option.some.injEq] at hb
            subst hb
            exact .low _ _ hsi hmi hc2 hlt
          · rename_i hlt
            have hV' : ∀ j : Int, (d.stop : Int) ≤ j → j < d.m → (W j ∨ j = i) →
                0 ≤ (V j.toNat).val ∧ (V j.toNat).val ≤ o.spSq.val := by
              intro j hj1 hj2 hj
              rcases hj with hj | rfl
              · exact hW j hj1 hj2 hj
              · exact ⟨not_lt.1 hlt, not_lt.1 hgt⟩
            have hcast : i = ((i.toNat : Nat) : Int) := by omega
            split
            · rename_i hnew
              refine ⟨_, _, rfl, fun _ => ⟨hV', Or.inr ⟨i.toNat, hsi, hmi, hcast, rfl, ?_⟩⟩, by simp⟩
              intro j hj1 hj2 hj
              rcases hj with hj | rfl
              · rcases hM with ⟨-, hM⟩ | ⟨k, -, -, -, hk, hM⟩
                · exact absurd hj (hM j hj1 hj2)
                · simp only at hk
                  rw [hk] at hnew
                  simp only [gtFmax, Scalar.gt, Fl.lt_eq, decide_eq_true_eq] at hnew
                  exact (hM j hj1 hj2 hj).trans hnew.le
              · exact le_rfl
            · rename_i hnew
              refine ⟨_, _, rfl, fun _ => ⟨hV', ?_⟩, by simp⟩
              rcases hM with ⟨hk, -⟩ | ⟨k, hk1, hk2, hk3, hk, hM⟩
              · simp only [Prod.mk.injEq] at hk
                rw [hk.1] at hnew
                exact absurd rfl hnew
              · refine Or.inr ⟨k, hk1, hk2, hk3, hk, fun j hj1 hj2 hj => ?_⟩
                rcases hj with hj | rfl
                · exact hM j hj1 hj2 hj
                · simp only at hk
                  rw [hk] at hnew
                  simp only [gtFmax, Scalar.gt, Fl.lt_eq, decide_eq_true_eq] at hnew
                  exact not_lt.1 hnew)
      (by
        rintro V W ⟨fm, km⟩ h ⟨hV, hM⟩
        refine ⟨fun j hj1 hj2 hj => hV j hj1 hj2 ((h j hj1 hj2).2 hj), ?_⟩
        rcases hM with ⟨hk, hM⟩ | ⟨k, hk1, hk2, hk3, hk, hM⟩
        · exact Or.inl ⟨hk, fun j hj1 hj2 hj => hM j hj1 hj2 ((h j hj1 hj2).2 hj)⟩
        · exact Or.inr ⟨k, hk1, hk2, hk3, hk, fun j hj1 hj2 hj => hM j hj1 hj2 ((h j hj1 hj2).2 hj)⟩)
    have hr3' : rrLoop o1.nwstop (d.m : Int) (o1.stopBody xc) ((d.m : Int) - o1.nwstop).toNat o1.idx3 (none, -1) =
        .ok (r3, i3, (fm, km)) := by
      rw [← hr3, show o1.nwstop = d.stop from ho.stop]
    have hidx3 : (d.stop : Int) - 1 ≤ i3 ∧ (d.stop < d.m → i3 < d.m) := by
      by_cases hp : d.stop < d.m
      · have := hi3 (by omega)
        exact ⟨by omega, fun _ => this.2⟩
      · have := hi3' (by omega)
        exact ⟨by rw [this]; exact ho.idx3.1, fun h => absurd h hp⟩
    set o2 : LowpassOracle (Fl R) := { o1 with idx3 := i3, fmax := fm, kmax := km } with ho2
    cases r3 with
    | some cut =>
      obtain ⟨-, -, hq⟩ := hs3 cut rfl
      refine ⟨some cut, o2, ?_, hFl _ _ _ _ _ _ hidx1 ho.idx2 hidx3, rfl, rfl, by simp, ?_, by simp⟩
      · unfold LowpassOracle.assessFeas
        show (nthI32 o0.spectrum 0 >>= fun first => _) = _
        rw [hc00, Res.ok_bind]
        show (rrLoop 0 o0.nwpass (o0.passBody xc) o0.nwpass.toNat o0.idx1 () >>= fun p => _) = _
        rw [hr1', Res.ok_bind]
        show (rrLoop o1.nwstop ((o0.spectrum.length : Nat) : Int) (o1.stopBody xc) (((o0.spectrum.length : Nat) : Int) - o1.nwstop).toNat o1.idx3 (none, -1) >>= fun p => _) = _
        rw [hmdim, hr3', Res.ok_bind]
      · intro c hc
        obtain rfl : cut = c := by simpa using hc
        exact hq
    | none =>
      have hstop := hn3 rfl
      -- transition band
      obtain ⟨r2, i2, ⟨⟩, hr2, hi2, hi2', hn2, hs2⟩ := rrLoop_spec (lo := (d.pass : Int)) (hi := (d.stop : Int))
        (body := o2.transBody xc)
        (fun W _ => ∀ j : Int, (d.pass : Int) ≤ j → j < d.stop → W j → 0 ≤ (V j.toNat).val)
        (fun _ b _ => LpForm o d n V xc b) (idx := o.idx2) (s := ())
        (by have := ho.idx2.1; omega) (by intro h; exact ho.idx2.2 (by omega)) (by intro j _ _ h; exact h.elim)
        (by
          intro W i s hlo hhi hW
          obtain ⟨col, hc1, hc2, hc3⟩ := hcol (i := i) (by omega) (by omega)
          have hc1' : nthI32 o2.spectrum i = .ok col := hc1
          simp only [LowpassOracle.transBody, hc1', Res.ok_bind, hc3, Fl.lt_eq, decide_eq_true_eq, Fl.zero_val]
          have hpi : d.pass ≤ i.toNat := by omega
          have hsi : i.toNat < d.stop := by omega
          split
          · rename_i hlt
            refine ⟨_, _, rfl, by simp, fun b hb => ?_⟩
            simp only [Option.some.injEq] at hb
            subst hb
            exact .trans _ _ hpi hsi hc2 hlt
          · rename_i hlt
            refine ⟨_, _, rfl, fun _ j hj1 hj2 hj => ?_, by simp⟩
            rcases hj with hj | rfl
            · exact hW j hj1 hj2 hj
            · exact not_lt.1 hlt)
        (by intro V W s h hV j hj1 hj2 hj; exact hV j hj1 hj2 ((h j hj1 hj2).2 hj))
      have hr2' : rrLoop o2.nwpass o2.nwstop (o2.transBody xc) (o2.nwstop - o2.nwpass).toNat o2.idx2 () =
          .ok (r2, i2, ()) := by
        rw [← hr2, show o2.nwstop = d.stop from ho.stop, show o2.nwpass = d.pass from ho.pass]
      have hidx2 : (d.pass : Int) - 1 ≤ i2 ∧ (d.pass < d.stop → i2 < d.stop) := by
        by_cases hp : d.pass < d.stop
        · have := hi2 (by omega)
          exact ⟨by omega, fun _ => this.2⟩
        · have := hi2' (by omega)
          exact ⟨by rw [this]; exact ho.idx2.1, fun h => absurd h hp⟩
      set o3 : LowpassOracle (Fl R) := { o2 with idx2 := i2 } with ho3
      cases r2 with
      | some cut =>
        obtain ⟨-, -, hq⟩ := hs2 cut rfl
        refine ⟨some cut, o3, ?_, hFl _ _ _ _ _ _ hidx1 hidx2 hidx3, rfl, rfl, by simp, ?_, by simp⟩
        · unfold LowpassOracle.assessFeas
          show (nthI32 o0.spectrum 0 >>= fun first => _) = _
          rw [hc00, Res.ok_bind]
          show (rrLoop 0 o0.nwpass (o0.passBody xc) o0.nwpass.toNat o0.idx1 () >>= fun p => _) = _
          rw [hr1', Res.ok_bind]
          show (rrLoop o1.nwstop ((o0.spectrum.length : Nat) : Int) (o1.stopBody xc) (((o0.spectrum.length : Nat) : Int) - o1.nwstop).toNat o1.idx3 (none, -1) >>= fun p => _) = _
          rw [hmdim, hr3', Res.ok_bind]
          show (rrLoop o2.nwpass o2.nwstop (o2.transBody xc) (o2.nwstop - o2.nwpass).toNat o2.idx2 () >>= fun p => _) = _
          rw [hr2', Res.ok_bind]
        · intro c hc
          obtain rfl : cut = c := by simpa using hc
          exact hq
      | none =>
        have htrans := hn2 rfl
        set o4 : LowpassOracle (Fl R) := { o3 with moreAlt := false } with ho4
        have hof4 : o4.FlFor d n ε := hFl _ _ _ _ _ _ hidx1 hidx2 hidx3
        have hx0 : xc.idx 0 = .ok (xc.vec 0) := hx.isVec.idx ho.dim
        by_cases hneg : (xc.vec 0).val < 0
        · obtain ⟨g, hg1, hg2⟩ := (isVec_new (α := Fl R) n).setIdx ho.dim (-1)
          refine ⟨some (g, ⟨-xc.vec 0, none⟩), o4, ?_, hof4, rfl, rfl, by simp, ?_, by simp⟩
          · unfold LowpassOracle.assessFeas
            show (nthI32 o0.spectrum 0 >>= fun first => _) = _
            rw [hc00, Res.ok_bind]
            show (rrLoop 0 o0.nwpass (o0.passBody xc) o0.nwpass.toNat o0.idx1 () >>= fun p => _) = _
            rw [hr1', Res.ok_bind]
            show (rrLoop o1.nwstop ((o0.spectrum.length : Nat) : Int) (o1.stopBody xc) (((o0.spectrum.length : Nat) : Int) - o1.nwstop).toNat o1.idx3 (none, -1) >>= fun p => _) = _
            rw [hmdim, hr3', Res.ok_bind]
            show (rrLoop o2.nwpass o2.nwstop (o2.transBody xc) (o2.nwstop - o2.nwpass).toNat o2.idx2 () >>= fun p => _) = _
            rw [hr2', Res.ok_bind]
            show (xc.idx 0 >>= fun p => _) = _
            rw [hx0, Res.ok_bind]
            simp only [Fl.lt_eq, Fl.zero_val, decide_eq_true_eq, if_pos hneg, hlen0, hg1, Res.ok_bind]
            rfl
          · intro c hc
            obtain rfl : _ = c := by simpa using hc
            exact .first g hg1 hneg
        · refine ⟨none, o4, ?_, hof4, rfl, rfl, fun _ => ⟨fun i hi => ?_, fun i h1 h2 => ?_, fun i h1 h2 => ?_,
            not_lt.1 hneg⟩, by simp, fun _ hsm => ?_⟩
          · unfold LowpassOracle.assessFeas
            show (nthI32 o0.spectrum 0 >>= fun first => _) = _
            rw [hc00, Res.ok_bind]
            show (rrLoop 0 o0.nwpass (o0.passBody xc) o0.nwpass.toNat o0.idx1 () >>= fun p => _) = _
            rw [hr1', Res.ok_bind]
            show (rrLoop o1.nwstop ((o0.spectrum.length : Nat) : Int) (o1.stopBody xc) (((o0.spectrum.length : Nat) : Int) - o1.nwstop).toNat o1.idx3 (none, -1) >>= fun p => _) = _
            rw [hmdim, hr3', Res.ok_bind]
            show (rrLoop o2.nwpass o2.nwstop (o2.transBody xc) (o2.nwstop - o2.nwpass).toNat o2.idx2 () >>= fun p => _) = _
            rw [hr2', Res.ok_bind]
            show (xc.idx 0 >>= fun p => _) = _
            rw [hx0, Res.ok_bind]
            simp only [Fl.lt_eq, Fl.zero_val, decide_eq_true_eq, if_neg hneg]
            rfl
          · have := hpass i (by omega) (by omega) ⟨by omega, by omega⟩
            simpa using this
          · have := hstop.1 i (by omega) (by omega) ⟨by omega, by omega⟩
            simpa using this
          · have := htrans i (by omega) (by omega) ⟨by omega, by omega⟩
            simpa using this
          · rcases hstop.2 with ⟨-, h⟩ | ⟨k, hk1, hk2, hk3, hk, hM⟩
            · exact absurd ⟨le_rfl, by omega⟩ (h d.stop le_rfl (by omega))
            · refine ⟨k, hk1, hk2, hk3, hk, fun i h1 h2 => ?_⟩
              have := hM i (by omega) (by omega) ⟨by omega, by omega⟩
              simpa using this

theorem norm1_nonneg' (v : Fin n → ℝ) : 0 ≤ norm1 v := Finset.sum_nonneg fun _ _ => abs_nonneg _

theorem lpRow_abs (i : Nat) (j : Fin n) : |lpRow d n i j| ≤ 2 := by
  unfold lpRow
  split
  · norm_num
  · rw [abs_mul, abs_two]
    have := Real.abs_cos_le_one (d.freq i * j)
    linarith

/-- a row of the table that is right up to `ε`, against any filter -/
theorem lp_row_err {i : Nat} {a : Fin n → ℝ} (ha : ∀ j, |a j - lpRow d n i j| ≤ ε) (z : Fin n → ℝ) :
    |a ⬝ᵥ z - lpResponse z (d.freq i)| ≤ ε * norm1 z := by
  rw [← lpRow_dot, ← sub_dotProduct, norm1, Finset.mul_sum]
  refine (Finset.abs_sum_le_sum_abs _ _).trans (Finset.sum_le_sum fun j _ => ?_)
  rw [abs_mul, Pi.sub_apply]
  exact mul_le_mul_of_nonneg_right (ha j) (abs_nonneg _)

/-- size of the terms of the computed response -/
theorem lp_row_size {i : Nat} {a : Fin n → ℝ} (ha : ∀ j, |a j - lpRow d n i j| ≤ ε) (x : Fin n → ℝ) :
    ∑ j, |a j| * |x j| ≤ (2 + ε) * norm1 x := by
  rw [norm1, Finset.mul_sum]
  refine Finset.sum_le_sum fun j _ => mul_le_mul_of_nonneg_right ?_ (abs_nonneg _)
  have h1 := abs_add_le (a j - lpRow d n i j) (lpRow d n i j)
  rw [sub_add_cancel] at h1
  linarith [ha j, lpRow_abs (d := d) i j]

/-- everything about the computed response at one grid point: `E` is the rounding error of the dot product, with one more
rounding for the bound it is compared with -/
theorem lp_val_err (hu : 0 ≤ u) {i : Nat} {a x : Fin n → ℝ} {v : ℝ} (ha : ∀ j, |a j - lpRow d n i j| ≤ ε)
    (hv : |v - a ⬝ᵥ x| ≤ ((1 + u) ^ (n + 1) - 1) * ∑ j, |a j| * |x j|) :
    |v - a ⬝ᵥ x| + u * |v| ≤ ((1 + u) ^ (n + 2) - 1) * (2 + ε) * norm1 x := by
  have h1 := lp_row_size ha x
  have hp : (1 : ℝ) ≤ (1 + u) ^ (n + 1) := one_le_pow₀ (by linarith)
  have h2 : |a ⬝ᵥ x| ≤ ∑ j, |a j| * |x j| := by
    refine (Finset.abs_sum_le_sum_abs _ _).trans (le_of_eq (Finset.sum_congr rfl fun j _ => abs_mul _ _))
  have h3 := abs_add_le (v - a ⬝ᵥ x) (a ⬝ᵥ x)
  rw [sub_add_cancel] at h3
  set S := ∑ j, |a j| * |x j|
  set T := (2 + ε) * norm1 x
  have h4 : ((1 + u) ^ (n + 1) - 1) * S ≤ ((1 + u) ^ (n + 1) - 1) * T := mul_le_mul_of_nonneg_left h1 (by linarith)
  have h5 : |v| ≤ (1 + u) ^ (n + 1) * T := by linarith
  have h6 := mul_le_mul_of_nonneg_left h5 hu
  have h7 : (1 + u) ^ (n + 2) = (1 + u) ^ (n + 1) * (1 + u) := pow_succ _ _
  rw [mul_assoc, h7]
  nlinarith

theorem fl_negVec {a : Arr (Fl R)} (h : a.IsVecShape n) : (negVec a).IsVecShape n ∧ (negVec a).flVec n = -a.flVec n := by
  have h1 := h.isVec
  have hv : IsVec (negVec a) n (fun i => -a.vec i) := by
    refine ⟨?_, rfl, ?_, ?_⟩
    · simp [negVec, Arr.ofList, h1.len]
    · simp [negVec, Arr.ofList, h1.len]
    · intro i hi
      show (a.data.map fun v => -v)[i]? = _
      rw [List.getElem?_map, h1.get i hi]
      rfl
  refine ⟨⟨hv.rows, hv.cols, hv.len⟩, ?_⟩
  funext j
  simp only [Arr.flVec, Pi.neg_apply]
  rw [hv.vec j.2]
  rfl

/-- A correct cut for the design problem in rounded arithmetic: deep, and both planes keep every filter that meets the
specification with the margin `lpErr`. -/
structure FlLpCut (d : LpData) (ε σ : ℝ) (x : Fin n → ℝ) (cut : Arr (Fl R) × ParallelCut (Fl R)) : Prop where
  shape : cut.1.IsVecShape n
  nonzero : cut.1.flVec n ≠ 0
  deep : 0 < cut.2.beta0.val
  keeps : ∀ z ∈ d.feasibleWith σ (lpErr u ε n (|d.lp| + |d.up| + |σ|) x z), cut.1.flVec n ⬝ᵥ (z - x) + cut.2.beta0.val ≤ 0 ∧
    ∀ b, cut.2.beta1 = some b → 0 ≤ cut.1.flVec n ⬝ᵥ (z - x) + b.val

theorem lp_upper (hu : 0 ≤ u) {az ax v r c β e E B : ℝ} (h1 : |az - r| ≤ e) (h2 : |v - ax| + u * |v| ≤ E)
    (h3 : |β - (v - c)| ≤ u * |v - c|) (h4 : |c| ≤ B) (h5 : r + (E + e + u * B) ≤ c) : az - ax + β ≤ 0 := by
  have a1 := (abs_le.1 h1).2
  have a2 := neg_abs_le (v - ax)
  have a3 := (abs_le.1 h3).2
  have a4 : |v - c| ≤ |v| + B := (abs_sub v c).trans (by linarith)
  have a5 := mul_le_mul_of_nonneg_left a4 hu
  have a6 := le_abs_self (v - ax)
  linarith

theorem lp_lower (hu : 0 ≤ u) {az ax v r c β e E B : ℝ} (h1 : |az - r| ≤ e) (h2 : |v - ax| + u * |v| ≤ E)
    (h3 : |β - (v - c)| ≤ u * |v - c|) (h4 : |c| ≤ B) (h5 : c + (E + e + u * B) ≤ r) : 0 ≤ az - ax + β := by
  have a1 := (abs_le.1 h1).1
  have a3 := (abs_le.1 h3).1
  have a4 : |v - c| ≤ |v| + B := (abs_sub v c).trans (by linarith)
  have a5 := mul_le_mul_of_nonneg_left a4 hu
  have a6 := neg_abs_le (v - ax)
  linarith

/-- what is known of row `i` and of the response computed with it -/
theorem lp_row_facts (hε : ε < 1) {o : LowpassOracle (Fl R)} (ho : o.FlFor d n ε) {xc : Arr (Fl R)}
    (hx : xc.IsVecShape n) {V : Nat → Fl R} (hV : ∀ i (h : i < o.spectrum.length), (o.spectrum[i]).dot xc = .ok (V i))
    {i : Nat} {col : Arr (Fl R)} (hc : o.spectrum[i]? = some col) :
    col.IsVecShape n ∧ col.flVec n ≠ 0 ∧ (∀ z, |col.flVec n ⬝ᵥ z - lpResponse z (d.freq i)| ≤ ε * norm1 z) ∧
      |(V i).val - col.flVec n ⬝ᵥ xc.flVec n| + u * |(V i).val| ≤ ((1 + u) ^ (n + 2) - 1) * (2 + ε) * norm1 (xc.flVec n) := by
  obtain ⟨hi, rfl⟩ := List.getElem?_eq_some_iff.1 hc
  have hs := ho.shape i hi
  have ha : ∀ j, |(o.spectrum[i]).flVec n j - lpRow d n i j| ≤ ε := ho.close i hi
  refine ⟨hs, fun h0 => ?_, lp_row_err ha, ?_⟩
  · have := ha ⟨0, ho.dim⟩
    rw [h0] at this
    simp only [Pi.zero_apply, lpRow, if_true, zero_sub, abs_neg, abs_one] at this
    linarith
  · obtain ⟨r, h1, h2⟩ := C71_dot_error _ xc hs hx
    rw [hV i hi] at h1
    simp only [Res.ok.injEq] at h1
    rw [h1]
    exact lp_val_err R.unit_nonneg ha h2

theorem lpErr_nonneg (hu : 0 ≤ u) (hε : 0 ≤ ε) {B : ℝ} (hB : 0 ≤ B) (x z : Fin n → ℝ) : 0 ≤ lpErr u ε n B x z := by
  have h1 : (1 : ℝ) ≤ (1 + u) ^ (n + 2) := one_le_pow₀ (by linarith)
  have h2 := mul_nonneg (mul_nonneg (sub_nonneg.2 h1) (by linarith : 0 ≤ 2 + ε)) (norm1_nonneg' x)
  have h3 := mul_nonneg hε (norm1_nonneg' z)
  have h4 := mul_nonneg hu hB
  unfold lpErr
  linarith

/-- every row can be multiplied with the query point -/
theorem lp_values {o : LowpassOracle (Fl R)} (ho : o.FlFor d n ε) {xc : Arr (Fl R)} (hx : xc.IsVecShape n) :
    ∃ V : Nat → Fl R, ∀ i (h : i < o.spectrum.length), (o.spectrum[i]).dot xc = .ok (V i) := by
  have : ∀ i, ∃ v, ∀ h : i < o.spectrum.length, (o.spectrum[i]).dot xc = .ok v := by
    intro i
    by_cases h : i < o.spectrum.length
    · obtain ⟨r, hr, -⟩ := C71_dot_error _ xc (ho.shape i h) hx
      exact ⟨r, fun _ => hr⟩
    · exact ⟨0, fun h' => absurd h' h⟩
  choose V hV using this
  exact ⟨V, hV⟩

/-- a filter whose computed responses pass every test -/
theorem lp_accepted (hd : d.Ok) (hε : ε < 1) {o : LowpassOracle (Fl R)} (ho : o.FlFor d n ε) {xc : Arr (Fl R)}
    (hx : xc.IsVecShape n) {V : Nat → Fl R} (hV : ∀ i (h : i < o.spectrum.length), (o.spectrum[i]).dot xc = .ok (V i))
    (h : (∀ i < d.pass, o.lpSq.val ≤ (V i).val ∧ (V i).val ≤ o.upSq.val) ∧
        (∀ i, d.stop ≤ i → i < d.m → 0 ≤ (V i).val ∧ (V i).val ≤ o.spSq.val) ∧
        (∀ i, d.pass ≤ i → i < d.stop → 0 ≤ (V i).val) ∧ 0 ≤ (xc.vec 0).val) :
    xc.flVec n ∈ d.feasibleWith o.spSq.val (-lpErr u ε n 0 (xc.flVec n) (xc.flVec n)) := by
  have h0 := R.unit_nonneg
  have hεn : 0 ≤ ε :=
    (abs_nonneg _).trans (ho.close 0 (by rw [ho.len]; have := hd.grid; omega) ⟨0, ho.dim⟩)
  have h1 := hd.order
  have h2 := hd.inside
  set x := xc.flVec n with hxd
  have hpos := lpErr_nonneg h0 hεn (le_refl 0) x x
  have key : ∀ i, i < d.m → |(V i).val - lpResponse x (d.freq i)| ≤ lpErr u ε n 0 x x := by
    intro i hi
    have hlt : i < o.spectrum.length := by rw [ho.len]; exact hi
    obtain ⟨f1, f2, f3, f4⟩ := lp_row_facts hε ho hx hV (List.getElem?_eq_getElem hlt)
    have b1 := f3 x
    have b2 := mul_nonneg h0 (abs_nonneg (V i).val)
    have b3 := abs_add_le ((V i).val - o.spectrum[i].flVec n ⬝ᵥ x) (o.spectrum[i].flVec n ⬝ᵥ x - lpResponse x (d.freq i))
    rw [sub_add_sub_cancel] at b3
    unfold lpErr
    linarith
  refine ⟨fun i hi => ?_, fun i h1 h2 => ?_, fun i h1 h2 => ?_, fun j hj => ?_⟩
  · have a := abs_le.1 (key i (by omega))
    have b := h.1 i hi
    rw [ho.lp, ho.up] at b
    constructor <;> linarith
  · have a := abs_le.1 (key i h2)
    have b := h.2.1 i h1 h2
    constructor <;> linarith
  · have a := abs_le.1 (key i (by omega))
    have b := h.2.2.1 i h1 h2
    linarith
  · have : x j = (xc.vec 0).val := by rw [hxd, Arr.flVec, hj]
    rw [this]
    linarith [h.2.2.2]

theorem lp_form_cut (hd : d.Ok) (hu : u ≤ 1 / 8) (hε : ε < 1) {o : LowpassOracle (Fl R)} (ho : o.FlFor d n ε) {xc : Arr (Fl R)}
    (hx : xc.IsVecShape n) {V : Nat → Fl R} (hV : ∀ i (h : i < o.spectrum.length), (o.spectrum[i]).dot xc = .ok (V i))
    {cut : Arr (Fl R) × ParallelCut (Fl R)} (h : LpForm o d n V xc cut) :
    FlLpCut d ε o.spSq.val (xc.flVec n) cut := by
  have h0 := R.unit_nonneg
  set x := xc.flVec n with hxd
  have hεn : 0 ≤ ε :=
    (abs_nonneg _).trans (ho.close 0 (by rw [ho.len]; have := hd.grid; omega) ⟨0, ho.dim⟩)
  have hB1 : |d.lp| ≤ |d.lp| + |d.up| + |o.spSq.val| := by linarith [abs_nonneg d.up, abs_nonneg o.spSq.val]
  have hB2 : |d.up| ≤ |d.lp| + |d.up| + |o.spSq.val| := by linarith [abs_nonneg d.lp, abs_nonneg o.spSq.val]
  have hB3 : |o.spSq.val| ≤ |d.lp| + |d.up| + |o.spSq.val| := by linarith [abs_nonneg d.lp, abs_nonneg d.up]
  have hB0 : |(0 : ℝ)| ≤ |d.lp| + |d.up| + |o.spSq.val| := by rw [abs_zero]; exact (abs_nonneg _).trans hB1
  have hexact : ∀ v : ℝ, |v - (v - 0)| ≤ u * |v - 0| := fun v => by simpa using mul_nonneg h0 (abs_nonneg v)
  have hrn : ∀ v c : ℝ, |-(R.rnd (-v + c)) - (v - c)| ≤ u * |v - c| := fun v c => by
    have := R.err (-v + c)
    rw [show -(R.rnd (-v + c)) - (v - c) = -(R.rnd (-v + c) - (-v + c)) by ring, abs_neg]
    rwa [show v - c = -(-v + c) by ring, abs_neg]
  cases h with
  | over i col h hc hv =>
    obtain ⟨f1, f2, f3, f4⟩ := lp_row_facts hε ho hx hV hc
    rw [ho.up] at hv
    refine ⟨f1, f2, ?_, fun z hz => ⟨?_, ?_⟩⟩
    · simp only [Fl.sub_val, ho.up]
      exact R.pos (by linarith) (by linarith)
    · simp only [dotProduct_sub, Fl.sub_val, ho.up]
      exact lp_upper h0 (f3 z) f4 (R.err _) hB2 (hz.1 i h).2
    · simp only [Option.some.injEq, forall_eq', dotProduct_sub, Fl.sub_val, ho.lp]
      exact lp_lower h0 (f3 z) f4 (R.err _) hB1 (hz.1 i h).1
  | under i col h hc hv =>
    obtain ⟨f1, f2, f3, f4⟩ := lp_row_facts hε ho hx hV hc
    obtain ⟨g1, g2⟩ := fl_negVec f1
    rw [ho.lp] at hv
    refine ⟨g1, by rw [g2]; exact neg_ne_zero.2 f2, ?_, fun z hz => ⟨?_, ?_⟩⟩
    · show 0 < R.rnd (-(V i).val + o.lpSq.val)
      rw [ho.lp]
      exact R.pos (by linarith) (by linarith)
    · show _ + R.rnd (-(V i).val + o.lpSq.val) ≤ 0
      rw [g2, ho.lp, neg_dotProduct, dotProduct_sub]
      linarith [lp_lower h0 (f3 z) f4 (hrn _ _) hB1 (hz.1 i h).1]
    · intro b hb
      simp only [Option.some.injEq] at hb
      subst hb
      show 0 ≤ _ + R.rnd (-(V i).val + o.upSq.val)
      rw [g2, ho.up, neg_dotProduct, dotProduct_sub]
      linarith [lp_upper h0 (f3 z) f4 (hrn _ _) hB2 (hz.1 i h).2]
  | high i col h1 h hc hv =>
    obtain ⟨f1, f2, f3, f4⟩ := lp_row_facts hε ho hx hV hc
    refine ⟨f1, f2, ?_, fun z hz => ⟨?_, ?_⟩⟩
    · simp only [Fl.sub_val]
      exact R.pos (by linarith) (by linarith)
    · simp only [dotProduct_sub, Fl.sub_val]
      exact lp_upper h0 (f3 z) f4 (R.err _) hB3 (hz.2.1 i h1 h).2
    · simp only [Option.some.injEq, forall_eq', dotProduct_sub]
      exact lp_lower h0 (f3 z) f4 (hexact _) hB0 (by rw [zero_add]; exact (hz.2.1 i h1 h).1)
  | low i col h1 h hc hv =>
    obtain ⟨f1, f2, f3, f4⟩ := lp_row_facts hε ho hx hV hc
    obtain ⟨g1, g2⟩ := fl_negVec f1
    refine ⟨g1, by rw [g2]; exact neg_ne_zero.2 f2, ?_, fun z hz => ⟨?_, ?_⟩⟩
    · show 0 < -(V i).val
      linarith
    · show _ + -(V i).val ≤ 0
      rw [g2, neg_dotProduct, dotProduct_sub]
      linarith [lp_lower h0 (f3 z) f4 (hexact _) hB0 (by rw [zero_add]; exact (hz.2.1 i h1 h).1)]
    · intro b hb
      simp only [Option.some.injEq] at hb
      subst hb
      show 0 ≤ _ + R.rnd (-(V i).val + o.spSq.val)
      rw [g2, neg_dotProduct, dotProduct_sub]
      linarith [lp_upper h0 (f3 z) f4 (hrn _ _) hB3 (hz.2.1 i h1 h).2]
  | trans i col h1 h hc hv =>
    obtain ⟨f1, f2, f3, f4⟩ := lp_row_facts hε ho hx hV hc
    obtain ⟨g1, g2⟩ := fl_negVec f1
    refine ⟨g1, by rw [g2]; exact neg_ne_zero.2 f2, ?_, fun z hz => ⟨?_, by simp⟩⟩
    · show 0 < -(V i).val
      linarith
    · show _ + -(V i).val ≤ 0
      rw [g2, neg_dotProduct, dotProduct_sub]
      linarith [lp_lower h0 (f3 z) f4 (hexact _) hB0 (by rw [zero_add]; exact hz.2.2.1 i h1 h)]
  | first g hg hv =>
    obtain ⟨g', hg1, hg2⟩ := (isVec_new (α := Fl R) n).setIdx ho.dim (-1)
    rw [hg] at hg1
    simp only [Res.ok.injEq] at hg1
    subst hg1
    have hgv : g.flVec n = -Pi.single (⟨0, ho.dim⟩ : Fin n) (1 : ℝ) := by
      funext j
      simp only [Arr.flVec]
      rw [hg2.vec j.2]
      by_cases hj : j = ⟨0, ho.dim⟩
      · subst hj
        simp only [upd1, if_true, Pi.neg_apply, Pi.single_eq_same]
        rfl
      · have : (j : Nat) ≠ 0 := fun h => hj (Fin.ext h)
        simp [upd1, this, hj]
    refine ⟨hg2.shape, ?_, ?_, fun z hz => ⟨?_, by simp⟩⟩
    · simp only
      rw [hgv]
      intro h
      have := congrFun h ⟨0, ho.dim⟩
      simp at this
    · show 0 < -(xc.vec 0).val
      linarith
    · show _ + -(xc.vec 0).val ≤ 0
      simp only
      rw [hgv, neg_dotProduct, single_dotProduct, one_mul, Pi.sub_apply]
      have h1 := hz.2.2.2 ⟨0, ho.dim⟩ rfl
      have h2 : x ⟨0, ho.dim⟩ = (xc.vec 0).val := rfl
      have h3 := lpErr_nonneg h0 hεn (hB0.trans' (abs_nonneg _)) x z
      linarith

/-- **C88** (feasibility query)  With the table right up to `ε < 1` and the hidden counters anywhere in their ranges, a query
never panics; an accepted filter meets the specification up to `lpErr`; and a cut is nonzero and deep, and both its planes keep
every filter that meets the specification with margin `lpErr`. -/
theorem C88_lowpass_feas (hd : d.Ok) (hu : u ≤ 1 / 8) (hε : ε < 1) (o : LowpassOracle (Fl R)) (ho : o.FlFor d n ε)
    (xc : Arr (Fl R)) (hx : xc.IsVecShape n) :
    ∃ r o', LowpassOracle.oracleFeas.assess o xc = .ok (r, o') ∧ o'.FlFor d n ε ∧ o'.spSq = o.spSq ∧
      (r = none → xc.flVec n ∈ d.feasibleWith o.spSq.val (-lpErr u ε n 0 (xc.flVec n) (xc.flVec n))) ∧
      ∀ g b0 b1, r = some (g, ⟨b0, b1⟩) → g.IsVecShape n ∧ g.flVec n ≠ 0 ∧ 0 < b0.val ∧
        ∀ z ∈ d.feasibleWith o.spSq.val (lpErr u ε n (|d.lp| + |d.up| + |o.spSq.val|) (xc.flVec n) z),
          g.flVec n ⬝ᵥ (z - xc.flVec n) + b0.val ≤ 0 ∧ ∀ b, b1 = some b → 0 ≤ g.flVec n ⬝ᵥ (z - xc.flVec n) + b.val := by
  obtain ⟨V, hV⟩ := lp_values ho hx
  obtain ⟨r, o', h1, h2, h3, h4, h5, h6, -⟩ := lpFl_assessFeas hd o ho xc hx V hV
  refine ⟨r, o', h1, h2, h4, fun hr => lp_accepted hd hε ho hx hV (h5 hr), ?_⟩
  intro g b0 b1 hr
  have hc := lp_form_cut hd hu hε ho hx hV (h6 _ hr)
  exact ⟨hc.shape, hc.nonzero, hc.deep, hc.keeps⟩

/-- **C88** (optimisation query, nonempty stopband, current bound `γ`)  A query never panics and `γ' ≤ γ`.  If improvement is
reported, the filter meets the specification with stopband bound `γ'` up to `lpErr`, some stopband value is `γ'` up to
`lpErr`, and the cut is central and keeps every filter meeting the specification with bound `γ'` and margin `lpErr`.
Otherwise `γ` is unchanged and the cut is deep and keeps every filter that meets the specification with bound `γ` and margin
`lpErr`. -/
theorem C88_lowpass_optim (hd : d.Ok) (hs : d.stop < d.m) (hu : u ≤ 1 / 8) (hε : ε < 1) (o : LowpassOracle (Fl R))
    (ho : o.FlFor d n ε) (xc : Arr (Fl R)) (hx : xc.IsVecShape n) (γ : Fl R) :
    ∃ g b0 b1 shrunk γ' o', LowpassOracle.oracle.assess o xc γ = .ok (((g, ⟨b0, b1⟩), shrunk), γ', o') ∧
      o'.FlFor d n ε ∧ g.IsVecShape n ∧ g.flVec n ≠ 0 ∧ γ'.val ≤ γ.val ∧
      (shrunk = true → b0.val = 0 ∧
        xc.flVec n ∈ d.feasibleWith γ'.val (-lpErr u ε n 0 (xc.flVec n) (xc.flVec n)) ∧
        (∃ k, d.stop ≤ k ∧ k < d.m ∧
          |γ'.val - lpResponse (xc.flVec n) (d.freq k)| ≤ lpErr u ε n 0 (xc.flVec n) (xc.flVec n)) ∧
        ∀ z ∈ d.feasibleWith γ'.val (lpErr u ε n 0 (xc.flVec n) z), g.flVec n ⬝ᵥ (z - xc.flVec n) ≤ 0 ∧
          ∀ b, b1 = some b → 0 ≤ g.flVec n ⬝ᵥ (z - xc.flVec n) + b.val) ∧
      (shrunk = false → γ' = γ ∧ 0 < b0.val ∧
        ∀ z ∈ d.feasibleWith γ.val (lpErr u ε n (|d.lp| + |d.up| + |γ.val|) (xc.flVec n) z),
          g.flVec n ⬝ᵥ (z - xc.flVec n) + b0.val ≤ 0 ∧
          ∀ b, b1 = some b → 0 ≤ g.flVec n ⬝ᵥ (z - xc.flVec n) + b.val) := by
  have h0 := R.unit_nonneg
  have hof : ({ o with spSq := γ } : LowpassOracle (Fl R)).FlFor d n ε :=
    ⟨ho.dim, ho.len, ho.shape, ho.close, ho.pass, ho.stop, ho.lp, ho.up, ho.idx1, ho.idx2, ho.idx3⟩
  obtain ⟨V, hV⟩ := lp_values hof hx
  obtain ⟨r, o1, h1, h2, h3, h4, h5, h6, h7⟩ := lpFl_assessFeas hd _ hof xc hx V hV
  cases r with
  | some cut =>
    obtain ⟨g, b0, b1⟩ := cut
    have hc := lp_form_cut hd hu hε hof hx hV (h6 _ rfl)
    refine ⟨g, b0, b1, false, γ, o1, ?_, h2, hc.shape, hc.nonzero, le_rfl, by simp, fun _ => ⟨rfl, hc.deep, hc.keeps⟩⟩
    simp only [LowpassOracle.oracle, LowpassOracle.assess, h1, Res.ok_bind]
  | none =>
    obtain ⟨k, hk1, hk2, hk3, hk4, hk5⟩ := h7 rfl hs
    obtain ⟨a1, a2, a3, a4⟩ := h5 rfl
    have hlt : k < o1.spectrum.length := by rw [h2.len]; exact hk2
    have hcol : nthI32 o1.spectrum (k : Int) = .ok (o1.spectrum[k]) := by
      rw [nthI32, if_pos (by omega), Int.toNat_natCast, List.getElem?_eq_getElem hlt]
      rfl
    have hc : ({ o with spSq := γ } : LowpassOracle (Fl R)).spectrum[k]? = some (o1.spectrum[k]) := by
      rw [← h3, List.getElem?_eq_getElem hlt]
    obtain ⟨f1, f2, f3, f4⟩ := lp_row_facts hε hof hx hV hc
    have hzero : ∀ t : ℝ, t + u * (0 : ℝ) = t := fun t => by ring
    refine ⟨o1.spectrum[k], 0, some (V k), true, V k, o1, ?_, h2, f1, f2, (a2 k hk1 hk2).2,
      fun _ => ⟨rfl, ?_, ⟨k, hk1, hk2, ?_⟩, fun z hz => ⟨?_, ?_⟩⟩, by simp⟩
    · simp only [LowpassOracle.oracle, LowpassOracle.assess, h1, Res.ok_bind, hk3, hcol, hk4, Res.ofOption]
    · have hof' : ({ o with spSq := V k } : LowpassOracle (Fl R)).FlFor d n ε :=
        ⟨ho.dim, ho.len, ho.shape, ho.close, ho.pass, ho.stop, ho.lp, ho.up, ho.idx1, ho.idx2, ho.idx3⟩
      exact lp_accepted hd hε hof' hx hV ⟨a1, fun i h1 h2 => ⟨(a2 i h1 h2).1, hk5 i h1 h2⟩, a3, a4⟩
    · have b1 := abs_le.1 (f3 (xc.flVec n))
      have b2 := mul_nonneg h0 (abs_nonneg (V k).val)
      have b3 := neg_abs_le ((V k).val - o1.spectrum[k].flVec n ⬝ᵥ xc.flVec n)
      have b4 := le_abs_self ((V k).val - o1.spectrum[k].flVec n ⬝ᵥ xc.flVec n)
      rw [lpErr, hzero, abs_le]
      constructor <;> linarith
    · have b1 := abs_le.1 (f3 z)
      have b2 := mul_nonneg h0 (abs_nonneg (V k).val)
      have b3 := neg_abs_le ((V k).val - o1.spectrum[k].flVec n ⬝ᵥ xc.flVec n)
      have b4 := le_abs_self ((V k).val - o1.spectrum[k].flVec n ⬝ᵥ xc.flVec n)
      have b5 := (hz.2.1 k hk1 hk2).2
      rw [lpErr, hzero] at b5
      rw [dotProduct_sub]
      linarith
    · intro b hb
      simp only [Option.some.injEq] at hb
      subst hb
      have b1 := abs_le.1 (f3 z)
      have b2 := mul_nonneg h0 (abs_nonneg (V k).val)
      have b3 := neg_abs_le ((V k).val - o1.spectrum[k].flVec n ⬝ᵥ xc.flVec n)
      have b5 := (hz.2.1 k hk1 hk2).1
      rw [lpErr, hzero] at b5
      rw [dotProduct_sub]
      linarith

end Ellalgo

import Verif.Spec.Lowpass64
import Verif.Props.Svm64
import Verif.Props.NanOracles
import Verif.Props.RoundedLowpass

/-! # C130: the low-pass oracle in IEEE `f64`, at every point -/

namespace Ellalgo
open Matrix
variable {n : Nat}

theorem negVec_shaped {α : Type} [Scalar α] {a : Arr α} (h : a.IsVecShape n) : (negVec a).IsVecShape n := by
  have hl : a.data.length = n := h.2.2
  exact ⟨by simp [negVec, Arr.ofList, hl], rfl, by simp [negVec, Arr.ofList, hl]⟩

/-- **C130** (feasibility query)  A query of a low-pass oracle in IEEE-754 `f64`, at any point of the right length, NaNs and infinities included: it
never panics and leaves the specification as it is; the point is accepted exactly if no test of the specification fails for the computed responses;
a cut has the dimension of the point.  After acceptance either every computed stopband response is a NaN, and no largest one is recorded, or the
recorded one is a number and no computed stopband response is above it. -/
theorem C130_lowpass_feas (hn : 0 < n) {o : LowpassOracle B64} (ho : o.Fits n) {x : Arr B64} (hx : x.IsVecShape n) :
    ∃ r o', o.assessFeas x = .ok (r, o') ∧ o'.Fits n ∧ o.SameSpec o' ∧ o'.spSq = o.spSq ∧
      (r = none ↔ o.Passes n o.spSq x) ∧ (∀ c, r = some c → c.1.IsVecShape n) ∧
      (r = none → (o'.kmax = -1 ∧ o'.fmax = none ∧ ∀ k : Nat, o.nwstop ≤ k → k < o.spectrum.length → o.respOf n x k = .nan) ∨
        ∃ k : Nat, o.nwstop ≤ k ∧ k < o.spectrum.length ∧ o'.kmax = k ∧ o'.fmax = some (o.respOf n x k) ∧ o.respOf n x k ≠ .nan ∧
          ∀ j : Nat, o.nwstop ≤ j → j < o.spectrum.length → Scalar.lt (o.respOf n x k) (o.respOf n x j) = false) := by
  obtain ⟨V, hV⟩ : ∃ V, V = o.respOf n x := ⟨_, rfl⟩
  obtain ⟨C, hC⟩ : ∃ C : Int → Arr B64, C = fun i => o.spectrum.getD i.toNat (Arr.new 0) := ⟨_, rfl⟩
  have hcol : ∀ i : Int, 0 ≤ i → i < o.spectrum.length → nthI32 o.spectrum i = .ok (C i) ∧ (C i).dot x = .ok (V i.toNat) ∧ (C i).IsVecShape n := by
    intro i h0 h1
    have hlt : i.toNat < o.spectrum.length := by omega
    have e : C i = o.spectrum[i.toNat] := by
      rw [hC]; simp only
      rw [List.getD_eq_getElem?_getD, List.getElem?_eq_getElem hlt]; rfl
    have hs := ho.rows _ (List.getElem_mem hlt)
    rw [← e] at hs
    refine ⟨?_, ?_, hs⟩
    · rw [nthI32, if_pos h0, List.getElem?_eq_getElem hlt, e]; rfl
    · rw [dot_spec hs.isVec hx.isVec, hV, hC]; rfl
  have h1 := ho.idx1
  have h2 := ho.order
  have h3 := ho.inside
  have h4 := ho.pass
  have h5 := ho.idx2
  have h6 := ho.idx3
  obtain ⟨hc0, -, hs0⟩ := hcol 0 le_rfl (by have := ho.grid; omega)
  have hlen0 : (C 0).len = n := hs0.2.2
  have hx0 : x.idx 0 = .ok (x.vec 0) := hx.isVec.idx hn
  obtain ⟨r1, i1, e1, a1, a2, a3, a4⟩ := rrLoop_test (lo := 0) (hi := o.nwpass)
    (body := ({ o with moreAlt := true } : LowpassOracle B64).passBody x) (idx := o.idx1)
    (t := fun i => if Scalar.gt (V i.toNat) o.upSq = true then some (C i, (⟨V i.toNat - o.upSq, some (V i.toNat - o.lpSq)⟩ : ParallelCut B64))
      else if Scalar.lt (V i.toNat) o.lpSq = true then some (negVec (C i), ⟨-V i.toNat + o.lpSq, some (-V i.toNat + o.upSq)⟩) else none)
    (by omega) (by omega) (by
      intro i hi1 hi2
      obtain ⟨c1, c2, -⟩ := hcol i hi1 (by omega)
      simp only [LowpassOracle.passBody, c1, c2, Res.ok_bind]
      split_ifs <;> rfl)
  rw [sub_zero] at e1
  have hidx1 : -1 ≤ i1 ∧ (0 < o.nwpass → i1 < o.nwpass) := by
    rcases lt_or_ge 0 o.nwpass with hp | hp
    · have := a1 hp; omega
    · have := a2 hp; omega
  cases r1 with
  | some c =>
    obtain ⟨b1, b2, b3⟩ := a4 c rfl
    obtain ⟨c1, c2, c3⟩ := hcol i1 b1 (by omega)
    refine ⟨some c, { o with moreAlt := true, idx1 := i1 }, ?_, ⟨ho.rows, ho.pass, ho.order, ho.inside, ho.grid, hidx1, ho.idx2, ho.idx3⟩,
      ⟨rfl, rfl, rfl, rfl, rfl⟩, rfl, ⟨by simp, fun hp => ?_⟩, ?_, by simp⟩
    · simp only [LowpassOracle.assessFeas, hc0, Res.ok_bind, e1]
    · exfalso
      have := hp.pass i1.toNat (by omega)
      rw [← hV] at this
      rw [show Scalar.gt (V i1.toNat) o.upSq = false from this.1, this.2] at b3
      simp at b3
    · intro c' hc'
      obtain rfl : c = c' := by simpa using hc'
      split_ifs at b3
      · rw [← (Option.some.inj b3)]; exact c3
      · rw [← (Option.some.inj b3)]; exact negVec_shaped c3
  | none =>
    have hpass := a3 rfl
    have hpass' : ∀ k : Nat, (k : Int) < o.nwpass → Scalar.lt o.upSq (V k) = false ∧ Scalar.lt (V k) o.lpSq = false := by
      intro k hk
      have := hpass k (by omega) hk
      simp only [Int.toNat_natCast] at this
      split_ifs at this with q1 q2
      exact ⟨by simpa [Scalar.gt] using q1, by simpa using q2⟩
    obtain ⟨r3, i3, ⟨fm, km⟩, e3, b1, b2, b3, b4⟩ := rrLoop_spec (lo := o.nwstop) (hi := (o.spectrum.length : Int))
      (body := ({ o with moreAlt := true, idx1 := i1 } : LowpassOracle B64).stopBody x) (idx := o.idx3)
      (s := ((none, -1) : Option B64 × Int))
      (fun W st => (∀ j : Int, o.nwstop ≤ j → j < o.spectrum.length → W j →
          Scalar.lt o.spSq (V j.toNat) = false ∧ Scalar.lt (V j.toNat) 0 = false) ∧
        ((st = (none, -1) ∧ ∀ j : Int, o.nwstop ≤ j → j < o.spectrum.length → W j → V j.toNat = .nan) ∨
          (∃ k : Nat, o.nwstop ≤ k ∧ k < o.spectrum.length ∧ st.2 = (k : Int) ∧ st.1 = some (V k) ∧ V k ≠ .nan ∧
            ∀ j : Int, o.nwstop ≤ j → j < o.spectrum.length → W j → Scalar.lt (V k) (V j.toNat) = false)))
      (fun i b _ => b.1.IsVecShape n ∧ (Scalar.lt o.spSq (V i.toNat) = true ∨ Scalar.lt (V i.toNat) 0 = true))
      (by omega) (by omega) ⟨fun j _ _ h => h.elim, .inl ⟨rfl, fun j _ _ h => h.elim⟩⟩
      (by
        rintro W i ⟨fm, km⟩ hlo hhi ⟨hW, hM⟩
        obtain ⟨c1, c2, c3⟩ := hcol i (by omega) (by omega)
        simp only [LowpassOracle.stopBody, c1, Res.ok_bind, c2]
        by_cases q1 : Scalar.gt (V i.toNat) o.spSq = true
        · refine ⟨_, _, if_pos q1, by simp, fun b hb => ?_⟩
          rw [← Option.some.inj hb]
          exact ⟨c3, .inl q1⟩
        · rw [if_neg q1]
          by_cases q2 : Scalar.lt (V i.toNat) 0 = true
          · refine ⟨_, _, if_pos q2, by simp, fun b hb => ?_⟩
            rw [← Option.some.inj hb]
            exact ⟨negVec_shaped c3, .inr q2⟩
          · rw [if_neg q2]
            have hW' : ∀ j : Int, o.nwstop ≤ j → j < o.spectrum.length → (W j ∨ j = i) →
                Scalar.lt o.spSq (V j.toNat) = false ∧ Scalar.lt (V j.toNat) 0 = false := by
              intro j hj1 hj2 hj
              rcases hj with hj | rfl
              · exact hW j hj1 hj2 hj
              · exact ⟨by simpa [Scalar.gt] using q1, by simpa using q2⟩
            have hcast : i = ((i.toNat : Nat) : Int) := by omega
            by_cases q3 : gtFmax (V i.toNat) fm = true
            · refine ⟨_, _, if_pos q3, fun _ => ⟨hW', .inr ⟨i.toNat, by omega, by omega, hcast, rfl, ?_, ?_⟩⟩, by simp⟩
              · rintro hnan
                rw [hnan] at q3
                cases fm with
                | none => exact Bool.false_ne_true q3
                | some v => exact ((B64.lt_iff _ _).1 q3).2.1 rfl
              · intro j hj1 hj2 hj
                by_contra hne
                obtain ⟨d1, d2, d3⟩ := (B64.lt_iff _ _).1 (by simpa using hne)
                rcases hj with hj | rfl
                · rcases hM with ⟨hk, hM⟩ | ⟨k, -, -, -, hk, hk', hM⟩
                  · exact d2 (hM j hj1 hj2 hj)
                  · simp only at hk
                    rw [hk] at q3
                    obtain ⟨f1, f2, f3⟩ := (B64.lt_iff _ _).1 q3
                    have := hM j hj1 hj2 hj
                    rw [(B64.lt_iff _ _).2 ⟨f1, d2, f3.trans d3⟩] at this
                    cases this
                · exact lt_irrefl _ d3
            · refine ⟨_, _, if_neg q3, fun _ => ⟨hW', ?_⟩, by simp⟩
              rcases hM with ⟨hk, hM⟩ | ⟨k, hk1, hk2, hk3, hk, hk', hM⟩
              · refine .inl ⟨hk, fun j hj1 hj2 hj => ?_⟩
                rcases hj with hj | rfl
                · exact hM j hj1 hj2 hj
                · simp only [Prod.mk.injEq] at hk
                  rw [hk.1] at q3
                  generalize V j.toNat = v at q2 q3
                  cases v with
                  | nan => rfl
                  | inf s =>
                    exfalso
                    cases s with
                    | true => exact q2 rfl
                    | false => exact q3 rfl
                  | zero s => exact absurd rfl q3
                  | num s => exact absurd rfl q3
              · refine .inr ⟨k, hk1, hk2, hk3, hk, hk', fun j hj1 hj2 hj => ?_⟩
                rcases hj with hj | rfl
                · exact hM j hj1 hj2 hj
                · simp only at hk
                  rw [hk] at q3
                  simpa [gtFmax, Scalar.gt] using q3)
      (by
        rintro V' W ⟨fm, km⟩ h ⟨hV', hM⟩
        refine ⟨fun j hj1 hj2 hj => hV' j hj1 hj2 ((h j hj1 hj2).2 hj), ?_⟩
        rcases hM with ⟨hk, hM⟩ | ⟨k, hk1, hk2, hk3, hk, hk', hM⟩
        · exact .inl ⟨hk, fun j hj1 hj2 hj => hM j hj1 hj2 ((h j hj1 hj2).2 hj)⟩
        · exact .inr ⟨k, hk1, hk2, hk3, hk, hk', fun j hj1 hj2 hj => hM j hj1 hj2 ((h j hj1 hj2).2 hj)⟩)
    have hidx3 : o.nwstop - 1 ≤ i3 ∧ (o.nwstop < o.spectrum.length → i3 < o.spectrum.length) := by
      rcases lt_or_ge o.nwstop (o.spectrum.length : Int) with hp | hp
      · have := b1 hp; omega
      · have := b2 hp; omega
    cases r3 with
    | some c =>
      obtain ⟨g1, g2, g3, g4⟩ := b4 c rfl
      refine ⟨some c, { o with moreAlt := true, idx1 := i1, idx3 := i3, fmax := fm, kmax := km }, ?_,
        ⟨ho.rows, ho.pass, ho.order, ho.inside, ho.grid, hidx1, ho.idx2, hidx3⟩, ⟨rfl, rfl, rfl, rfl, rfl⟩, rfl,
        ⟨by simp, fun hp => ?_⟩, ?_, by simp⟩
      · simp only [LowpassOracle.assessFeas, hc0, Res.ok_bind, e1, e3]
      · exfalso
        have := hp.stop i3.toNat (by omega) (by omega)
        rw [← hV] at this
        rcases g4 with g4 | g4
        · rw [this.1] at g4; cases g4
        · rw [this.2] at g4; cases g4
      · intro c' hc'
        obtain rfl : c = c' := by simpa using hc'
        exact g3
    | none =>
      obtain ⟨hstop, hmax⟩ := b3 rfl
      obtain ⟨r2, i2, e2, d1, d2, d3, d4⟩ := rrLoop_test (lo := o.nwpass) (hi := o.nwstop)
        (body := ({ o with moreAlt := true, idx1 := i1, idx3 := i3, fmax := fm, kmax := km } : LowpassOracle B64).transBody x) (idx := o.idx2)
        (t := fun i => if Scalar.lt (V i.toNat) 0 = true then some (negVec (C i), (⟨-V i.toNat, none⟩ : ParallelCut B64)) else none)
        (by omega) (by omega) (by
          intro i hi1 hi2
          obtain ⟨c1, c2, -⟩ := hcol i (by omega) (by omega)
          simp only [LowpassOracle.transBody, c1, c2, Res.ok_bind]
          split_ifs <;> rfl)
      have hidx2 : o.nwpass - 1 ≤ i2 ∧ (o.nwpass < o.nwstop → i2 < o.nwstop) := by
        rcases lt_or_ge o.nwpass o.nwstop with hp | hp
        · have := d1 hp; omega
        · have := d2 hp; omega
      cases r2 with
      | some c =>
        obtain ⟨g1, g2, g3⟩ := d4 c rfl
        obtain ⟨-, -, c3⟩ := hcol i2 (by omega) (by omega)
        refine ⟨some c, { o with moreAlt := true, idx1 := i1, idx3 := i3, fmax := fm, kmax := km, idx2 := i2 }, ?_,
          ⟨ho.rows, ho.pass, ho.order, ho.inside, ho.grid, hidx1, hidx2, hidx3⟩, ⟨rfl, rfl, rfl, rfl, rfl⟩, rfl,
          ⟨by simp, fun hp => ?_⟩, ?_, by simp⟩
        · simp only [LowpassOracle.assessFeas, hc0, Res.ok_bind, e1, e3, e2]
        · exfalso
          have := hp.trans i2.toNat (by omega) (by omega)
          rw [← hV] at this
          rw [this] at g3
          simp at g3
        · intro c' hc'
          obtain rfl : c = c' := by simpa using hc'
          split_ifs at g3
          rw [← (Option.some.inj g3)]; exact negVec_shaped c3
      | none =>
        have htrans := d3 rfl
        by_cases hneg : Scalar.lt (x.vec 0) 0 = true
        · obtain ⟨g, hg1, hg2⟩ := (isVec_new (α := B64) n).setIdx hn (-1)
          refine ⟨some (g, ⟨-x.vec 0, none⟩), { o with moreAlt := false, idx1 := i1, idx3 := i3, fmax := fm, kmax := km, idx2 := i2 }, ?_,
            ⟨ho.rows, ho.pass, ho.order, ho.inside, ho.grid, hidx1, hidx2, hidx3⟩, ⟨rfl, rfl, rfl, rfl, rfl⟩, rfl,
            ⟨by simp, fun hp => ?_⟩, ?_, by simp⟩
          · simp only [LowpassOracle.assessFeas, hc0, Res.ok_bind, e1, e3, e2, hx0, hneg, if_true, hlen0, hg1]
          · rw [hp.first] at hneg; cases hneg
          · intro c' hc'
            rw [← Option.some.inj hc']; exact hg2.shape
        · refine ⟨none, { o with moreAlt := false, idx1 := i1, idx3 := i3, fmax := fm, kmax := km, idx2 := i2 }, ?_,
            ⟨ho.rows, ho.pass, ho.order, ho.inside, ho.grid, hidx1, hidx2, hidx3⟩, ⟨rfl, rfl, rfl, rfl, rfl⟩, rfl,
            ⟨fun _ => ⟨?_, ?_, ?_, by simpa using hneg⟩, fun _ => rfl⟩, by simp, fun _ => ?_⟩
          · simp only [LowpassOracle.assessFeas, hc0, Res.ok_bind, e1, e3, e2, hx0, hneg]
            rfl
          · rw [← hV]; exact hpass'
          · intro k hk1 hk2
            rw [← hV]
            have := hstop k hk1 (by omega) ⟨hk1, by omega⟩
            simpa only [Int.toNat_natCast] using this
          · intro k hk1 hk2
            rw [← hV]
            have := htrans k hk1 hk2
            simp only [Int.toNat_natCast] at this
            split_ifs at this with q
            simpa using q
          · rw [← hV]
            rcases hmax with ⟨hk, hM⟩ | ⟨k, hk1, hk2, hk3, hk, hk', hM⟩
            · simp only [Prod.mk.injEq] at hk
              refine .inl ⟨hk.2, hk.1, fun j hj1 hj2 => ?_⟩
              have := hM j hj1 (by omega) ⟨hj1, by omega⟩
              simpa only [Int.toNat_natCast] using this
            · refine .inr ⟨k, hk1, hk2, hk3, hk, hk', fun j hj1 hj2 => ?_⟩
              have := hM j hj1 (by omega) ⟨hj1, by omega⟩
              simpa only [Int.toNat_natCast] using this

end Ellalgo

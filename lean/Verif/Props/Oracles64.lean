import Verif.Lib.Oracles64
import Verif.Props.Binary64StableRun
import Verif.Props.RoundedLowpassRuns
import Verif.Props.RoundedSvm

/-! C126: the low-pass and the SVM oracle in IEEE-754 `f64`. -/

namespace Ellalgo

theorem ltInf_same {a : B64} {x : Fl bin53} (h : Same a x) : Scalar.ltInf a = Scalar.ltInf x := by
  cases a with
  | nan => exact h.1.elim
  | inf s => exact h.1.elim
  | zero s => rfl
  | num s => rfl

theorem gtNegInf_same {a : B64} {x : Fl bin53} (h : Same a x) : Scalar.gtNegInf a = Scalar.gtNegInf x := by
  cases a with
  | nan => exact h.1.elim
  | inf s => exact h.1.elim
  | zero s => rfl
  | num s => rfl

section lowpass
variable {n : Nat} {o : LowpassOracle B64} {o' : LowpassOracle (Fl bin53)} {x : Arr B64} {x' : Arr (Fl bin53)}

theorem passBody_same (ho : o.Same64 o') (hx : x.Same x') (ok : o'.Safe n o'.spSq x') (i : Int) (u : Unit) :
    Res.Rel (fun p q => OptRel SameCut p.1 q.1 ∧ True) (o.passBody x i u) (o'.passBody x' i u) := by
  unfold LowpassOracle.passBody
  refine (nthI32_rel ho.spectrum i).bind ?_
  rintro col col' ⟨hc, hm⟩
  obtain ⟨s1, s2, s3, s4, -, s6, s7, -⟩ := ok.2 col' hm
  obtain ⟨v, e1, e2, hv⟩ := hc.dot hx s1 ok.1 s2
  simp only [e1, e2, Res.ok_bind, hv.gt ho.upSq, hv.lt ho.lpSq]
  split_ifs
  · exact ⟨⟨hc, hv.sub ho.upSq s3, hv.sub ho.lpSq s4⟩, trivial⟩
  · exact ⟨⟨hc.negVec, hv.neg.add ho.lpSq s6, hv.neg.add ho.upSq s7⟩, trivial⟩
  · exact ⟨trivial, trivial⟩

theorem stopBody_same (ho : o.Same64 o') (hx : x.Same x') (ok : o'.Safe n o'.spSq x') (i : Int) (s : Option B64 × Int)
    (t : Option (Fl bin53) × Int) (hs : OptRel Same s.1 t.1 ∧ s.2 = t.2) :
    Res.Rel (fun p q => OptRel SameCut p.1 q.1 ∧ OptRel Same p.2.1 q.2.1 ∧ p.2.2 = q.2.2) (o.stopBody x i s) (o'.stopBody x' i t) := by
  unfold LowpassOracle.stopBody
  refine (nthI32_rel ho.spectrum i).bind ?_
  rintro col col' ⟨hc, hm⟩
  obtain ⟨s1, s2, -, -, s5, -, -, s8⟩ := ok.2 col' hm
  obtain ⟨v, e1, e2, hv⟩ := hc.dot hx s1 ok.1 s2
  obtain ⟨f, k⟩ := s
  obtain ⟨f', k'⟩ := t
  obtain ⟨hf, hk⟩ := hs
  simp only at hf hk
  subst hk
  have hg : gtFmax v f = gtFmax (dotV n col'.vec x'.vec) f' := by
    cases f <;> cases f'
    · exact gtNegInf_same hv
    · exact hf.elim
    · exact hf.elim
    · exact hv.gt hf
  simp only [e1, e2, Res.ok_bind, hv.gt ho.spSq, hv.lt .zero, hg]
  split_ifs
  · exact ⟨⟨hc, hv.sub ho.spSq s5, hv⟩, hf, rfl⟩
  · exact ⟨⟨hc.negVec, hv.neg, hv.neg.add ho.spSq s8⟩, hf, rfl⟩
  · exact ⟨trivial, hv, rfl⟩
  · exact ⟨trivial, hf, rfl⟩

theorem transBody_same (ho : o.Same64 o') (hx : x.Same x') (ok : o'.Safe n o'.spSq x') (i : Int) (u : Unit) :
    Res.Rel (fun p q => OptRel SameCut p.1 q.1 ∧ True) (o.transBody x i u) (o'.transBody x' i u) := by
  unfold LowpassOracle.transBody
  refine (nthI32_rel ho.spectrum i).bind ?_
  rintro col col' ⟨hc, hm⟩
  obtain ⟨s1, s2, -⟩ := ok.2 col' hm
  obtain ⟨v, e1, e2, hv⟩ := hc.dot hx s1 ok.1 s2
  simp only [e1, e2, Res.ok_bind, hv.lt .zero]
  split_ifs
  · exact ⟨⟨hc.negVec, hv.neg, trivial⟩, trivial⟩
  · exact ⟨trivial, trivial⟩

/-- answers of two low-pass oracles are the same -/
abbrev SameLp (p : Option (Arr B64 × ParallelCut B64) × LowpassOracle B64)
    (q : Option (Arr (Fl bin53) × ParallelCut (Fl bin53)) × LowpassOracle (Fl bin53)) : Prop := OptRel SameCut p.1 q.1 ∧ p.2.Same64 q.2

/-- C126: a query of the low-pass oracle whose operations stay in range gives the same answer in `f64` as in arithmetic rounded to 53
bits, and leaves the same state. -/
theorem C126_lowpass_query (ho : o.Same64 o') (hx : x.Same x') (ok : o'.Safe n o'.spSq x') :
    Res.Rel SameLp (o.assessFeas x) (o'.assessFeas x') := by
  obtain ⟨a1, a2, a3, a4, a5, a6, a7, a8, a9, a10, a11, a12⟩ := o
  obtain ⟨b1, b2, b3, b4, b5, b6, b7, b8, b9, b10, b11, b12⟩ := o'
  obtain ⟨c1, c2, c3, c4, c5, c6, c7, c8, c9, c10, c11, c12⟩ := ho
  simp only at c1 c2 c3 c4 c5 c6 c7 c8 c9 c10 c11 c12
  subst c1 c2 c3 c4 c5 c6 c7
  have hl := c8.length_eq
  unfold LowpassOracle.assessFeas
  refine (nthI32_rel c8 0).bind ?_
  rintro first first' ⟨hfirst, -⟩
  have hlen : first.len = first'.len := hfirst.data.length_eq
  simp only [hl, hlen]
  refine (rrLoop_rel (P := fun _ _ => True) (Q := SameCut) (fun i s t h => ?_) _ _ _ _ trivial).bind ?_
  · exact passBody_same (o' := ⟨true, a2, b3, a4, a5, b6, b7, b8, a9, a10, b11, a12⟩) ⟨rfl, rfl, rfl, rfl, rfl, rfl, rfl, c8, c9, c10, c11, c12⟩ hx ok i s
  rintro ⟨r, i1, u1⟩ ⟨r', i1', u1'⟩ ⟨h1, h2, -⟩
  simp only at h1 h2
  subst h2
  cases r with
  | some c =>
    cases r' with
    | none => exact h1.elim
    | some c' =>
      exact ⟨h1, rfl, rfl, rfl, rfl, rfl, rfl, rfl, c8, c9, c10, c11, c12⟩
  | none =>
    cases r' with
    | some c' => exact h1.elim
    | none =>
      refine (rrLoop_rel (P := fun (a : Option B64 × Int) (b : Option (Fl bin53) × Int) => OptRel Same a.1 b.1 ∧ a.2 = b.2) (Q := SameCut)
        (fun i s t h => ?_) _ _ _ _ (⟨trivial, rfl⟩ : OptRel Same (none : Option B64) (none : Option (Fl bin53)) ∧ (-1 : Int) = -1)).bind ?_
      · exact stopBody_same (o' := ⟨true, i1, b3, a4, a5, b6, b7, b8, a9, a10, b11, a12⟩) ⟨rfl, rfl, rfl, rfl, rfl, rfl, rfl, c8, c9, c10, c11, c12⟩ hx ok i s t h
      rintro ⟨r, i3, f, km⟩ ⟨r', i3', f', km'⟩ ⟨h3, h4, h5, h6⟩
      simp only at h3 h4 h5 h6
      subst h4 h6
      cases r with
      | some c =>
        cases r' with
        | none => exact h3.elim
        | some c' =>
          exact ⟨h3, rfl, rfl, rfl, rfl, rfl, rfl, rfl, c8, c9, c10, c11, h5⟩
      | none =>
        cases r' with
        | some c' => exact h3.elim
        | none =>
          refine (rrLoop_rel (P := fun _ _ => True) (Q := SameCut) (fun i s t h => ?_) _ _ _ _ trivial).bind ?_
          · exact transBody_same (o' := ⟨true, i1, b3, a4, a5, b6, b7, b8, a9, i3, f', km⟩) ⟨rfl, rfl, rfl, rfl, rfl, rfl, rfl, c8, c9, c10, c11, h5⟩ hx ok i s
          rintro ⟨r, i2, u2⟩ ⟨r', i2', u2'⟩ ⟨h7, h8, -⟩
          simp only at h7 h8
          subst h8
          cases r with
          | some c =>
            cases r' with
            | none => exact h7.elim
            | some c' =>
              exact ⟨h7, rfl, rfl, rfl, rfl, rfl, rfl, rfl, c8, c9, c10, c11, h5⟩
          | none =>
            cases r' with
            | some c' => exact h7.elim
            | none =>
              refine (hx.getIdx 0).bind ?_
              intro a a' ha
              simp only [ha.lt .zero]
              split_ifs
              · refine (Arr.Same.set (Arr.Same.new _) 0 Same.one.neg).bind ?_
                intro g g' hg
                exact ⟨⟨hg, ha.neg, trivial⟩, rfl, rfl, rfl, rfl, rfl, rfl, rfl, c8, c9, c10, c11, h5⟩
              · exact ⟨trivial, rfl, rfl, rfl, rfl, rfl, rfl, rfl, c8, c9, c10, c11, h5⟩

/-- C126: the low-pass oracle as feasibility oracle -/
theorem C126_lowpass_feas : SameFeas (LowpassOracle.oracleFeas : OracleFeas _ (Arr B64) (ParallelCut B64) B64) LowpassOracle.oracleFeas
    LowpassOracle.Same64 (fun o x => o.Safe n o.spSq x) := by
  intro o o' x x' ho hx ok
  exact C126_lowpass_query ho hx ok

/-- C126: the low-pass oracle as optimisation oracle -/
theorem C126_lowpass_optim : SameOptim (LowpassOracle.oracle : OracleOptim _ (Arr B64) (ParallelCut B64) B64) LowpassOracle.oracle
    LowpassOracle.Same64 (fun o x γ => o.Safe n γ x) := by
  intro o o' x x' γ γ' ho hx hγ ok
  show Res.Rel _ (o.assess x γ) (o'.assess x' γ')
  unfold LowpassOracle.assess
  refine (C126_lowpass_query (n := n) (o := { o with spSq := γ }) (o' := { o' with spSq := γ' })
    ⟨ho.moreAlt, ho.idx1, ho.idx2, ho.idx3, ho.nwpass, ho.nwstop, ho.kmax, ho.spectrum, ho.lpSq, ho.upSq, hγ, ho.fmax⟩ hx ok).bind ?_
  rintro ⟨r, o1⟩ ⟨r', o1'⟩ ⟨h1, h2⟩
  simp only at h1 h2
  cases r with
  | some c =>
    cases r' with
    | none => exact h1.elim
    | some c' => exact ⟨h1, rfl, hγ, h2⟩
  | none =>
    cases r' with
    | some c' => exact h1.elim
    | none =>
      simp only [h2.kmax]
      refine (nthI32_rel h2.spectrum _).bind ?_
      rintro col col' ⟨hc, -⟩
      refine Res.Rel.bind (R := Same) ?_ ?_
      · have := h2.fmax
        cases h3 : o1.fmax <;> cases h4 : o1'.fmax <;> rw [h3, h4] at this
        · trivial
        · exact this.elim
        · exact this.elim
        · exact this
      · intro f f' hf
        exact ⟨⟨hc, .zero, hf⟩, rfl, hf, h2⟩

end lowpass
end Ellalgo

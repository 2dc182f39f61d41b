import Verif.Lib.StableSame64
import Verif.Props.Binary64RunQ

/-! C125: as long as nothing leaves the range of `f64`, runs on `EllStable` in IEEE-754 `f64` are the runs in arithmetic rounded to 53
bits. -/

namespace Ellalgo

/-- C125: what one update of `EllStable` computes in any arithmetic, operation by operation, for any stored factors: `w` is the result of
the forward substitution, `ω = Σ w_i m_ii w_i`, `h` the result of the backward substitution.  The centre moves by `ρ / ω · h`; the cut that
is not taken leaves the centre, `kappa` and everything on and above the diagonal. -/
theorem C125_update_value {α T : Type} [Scalar α] [CutType T α] {n : Nat} (hn : 0 < n) (k : UpdateKind) (e : EllStable α) (he : e.Shaped n)
    (c : Arr α × T) (hc : c.1.IsVecShape n) :
    ∃ w h, EllStable.IsFwd n e.mq.mat c.1.vec w ∧ EllStable.IsBwd n e.mq.mat w (fun i => w i * e.mq.mat i i) h ∧
    ∀ om, om = (sumTo n fun i => w i * e.mq.mat i i * w i) → ∀ st ρ σ δ, CutType.call k c.2 e.helper (e.kappa * om) = (st, ρ, σ, δ) →
      ∃ e', EllStable.space.update k e c = .ok (st, e') ∧ e'.Shaped n ∧ e'.helper = e.helper ∧ e'.tsq = e.kappa * om ∧
      (∀ i < n, ∀ j < i, e'.mq.mat i j = e.mq.mat j i * w j) ∧
      (st ≠ .success → e'.xc = e.xc ∧ e'.kappa = e.kappa ∧ ∀ i < n, ∀ j < n, i ≤ j → e'.mq.mat i j = e.mq.mat i j) ∧
      (st = .success → (∀ i < n, e'.xc.vec i = e.xc.vec i - ρ / om * h i) ∧ e'.kappa = e.kappa * δ ∧
        ∀ t, t = addFrom (om / (σ / (1 - σ))) (fun i => w i * e.mq.mat i i * w i) →
          (∀ i < n, e'.mq.mat i i = e.mq.mat i i * (t i / t (i + 1))) ∧
          ∀ i j, i < j → j < n → e'.mq.mat i j = e.mq.mat i j + w i * e.mq.mat i i / t (i + 1) * (e.mq.mat i j * w i)) := by
  obtain ⟨w, h, f1, f2, f3⟩ := EllStable.updateCore_generic hn he.1.isMat he.2.isVec hc.isVec (CutType.call k c.2 e.helper)
  refine ⟨w, h, f1, f2, fun om ho st ρ σ δ hq => ?_⟩
  subst ho
  obtain ⟨e', a1, a2, a3, a4, a5⟩ := f3 _ _ _ _ hq
  rw [EllStable.update_eq]
  by_cases hst : st = .success
  · obtain ⟨b1, b2, b3⟩ := a5 hst
    refine ⟨e', a1, ⟨b1.shape, b2.shape⟩, a2, a3, fun i hi j hj => ?_, fun h => absurd hst h, fun _ => ⟨fun i hi => b2.vec hi, b3, ?_⟩⟩
    · rw [b1.mat hi (by omega), EllStable.newF, if_pos hj]
    · intro t ht
      subst ht
      refine ⟨fun i hi => ?_, fun i j hij hj => ?_⟩
      · rw [b1.mat hi hi, EllStable.newF, if_neg (by omega), if_pos rfl]
      · rw [b1.mat (by omega) hj, EllStable.newF, if_neg (by omega), if_neg (by omega)]
  · obtain ⟨b1, b2, b3⟩ := a4 hst
    refine ⟨e', a1, ⟨b1.shape, by rw [b2]; exact he.2⟩, a2, a3, fun i hi j hj => ?_, fun _ => ⟨b2, b3, fun i hi j hj hij => ?_⟩,
      fun h => absurd h hst⟩
    · rw [b1.mat hi (by omega), EllStable.lowM, if_pos hj]
    · rw [b1.mat hi hj, EllStable.lowM, if_neg (by omega)]

variable {n : Nat} {T T' Ω Ω' : Type} [Cut64 T T'] [CutType T B64] [CutType T' (Fl bin53)] [LawfulCut64 T T']

/-- C125: an update of `EllStable` (bias, central or discrete; one cut or two) whose operations stay in range gives in `f64` the same
status, and the same centre, factors, `kappa` and `tsq`, as in arithmetic rounded to 53 bits. -/
theorem C125_update {e : EllStable B64} {e' : EllStable (Fl bin53)} {c : Arr B64 × T} {c' : Arr (Fl bin53) × T'} (hn : 0 < n)
    (he : e.Same64 e') (hs : e'.Shaped n) (hc : SameCut c c') (hg : c'.1.IsVecShape n) (k : UpdateKind) (ok : EllStable.Safe n k e' c') :
    Res.Rel (fun p q => p.1 = q.1 ∧ p.2.Same64 q.2) (EllStable.space.update k e c) (EllStable.space.update k e' c') :=
  (EllStable.same_update hn he hs hc hg k ok).1

/-- C125: constructors given the same numbers give the same search space, for every dimension from 2 to `2⁶⁴`. -/
theorem C125_new (κ : B64) (κ' : Fl bin53) (mq xc : Arr B64) (mq' xc' : Arr (Fl bin53)) (hκ : Same κ κ') (hm : mq.Same mq')
    (hx : xc.Same xc') (h2 : 2 ≤ xc'.len) (h64 : xc'.len ≤ 2 ^ 64) :
    (EllStable.newWithMatrix κ mq xc).Same64 (EllStable.newWithMatrix κ' mq' xc') := by
  have hl : xc.len = xc'.len := hx.data.length_eq
  refine ⟨hm, hx, hκ, ?_, .zero⟩
  show (EllCalc.new xc.len).Same (EllCalc.new xc'.len)
  rw [hl]
  exact same_new h2 h64

theorem stable_feas_same {orc : OracleFeas Ω (Arr B64) T B64} {orc' : OracleFeas Ω' (Arr (Fl bin53)) T' (Fl bin53)} {RΩ : Ω → Ω' → Prop}
    {P : Ω' → Arr (Fl bin53) → Prop} (hor : SameFeas orc orc' RΩ P) {tol : B64} {tol' : Fl bin53} (ht : Same tol tol') (hn : 0 < n)
    (k : Nat) : ∀ (i : Nat) (w : Ω) (w' : Ω') (e : EllStable B64) (e' : EllStable (Fl bin53)), RΩ w w' → e.Same64 e' → e'.Shaped n →
      EllStable.FeasSafe orc' n P tol' k w' e' →
      Res.Rel (fun p q => OptRel Arr.Same p.1.1 q.1.1 ∧ p.1.2 = q.1.2 ∧ RΩ p.2.1 q.2.1 ∧ p.2.2.Same64 q.2.2)
        (feasLoop orc EllStable.space tol k i w e) (feasLoop orc' EllStable.space tol' k i w' e') := by
  induction k with
  | zero => intro i w w' e e' hw he _ _; exact ⟨trivial, rfl, hw, he⟩
  | succ k ih =>
    intro i w w' e e' hw he hs ok
    obtain ⟨hP, ok⟩ := ok
    simp only [feasLoop]
    have ha : Res.Rel (fun p q => OptRel SameCut p.1 q.1 ∧ RΩ p.2 q.2) (orc.assess w e.xc) (orc'.assess w' e'.xc) :=
      hor w w' e.xc e'.xc hw he.xc hP
    show Res.Rel _ (orc.assess w e.xc >>= _) (orc'.assess w' e'.xc >>= _)
    cases h1 : orc.assess w e.xc with
    | panic =>
      cases h2 : orc'.assess w' e'.xc with
      | panic => trivial
      | ok q => rw [h1, h2] at ha; exact ha.elim
    | ok p =>
      cases h2 : orc'.assess w' e'.xc with
      | panic => rw [h1, h2] at ha; exact ha.elim
      | ok q =>
        rw [h1, h2] at ha
        obtain ⟨cut, v⟩ := p
        obtain ⟨cut', v'⟩ := q
        obtain ⟨hc, hv⟩ := ha
        simp only [Res.ok_bind]
        simp only at hc hv
        cases cut with
        | none =>
          cases cut' with
          | none => exact ⟨he.xc, rfl, hv, he⟩
          | some c' => exact hc.elim
        | some c =>
          cases cut' with
          | none => exact hc.elim
          | some c' =>
            obtain ⟨g1, g2, g3⟩ := ok c' v' h2
            obtain ⟨r1, r2⟩ := EllStable.same_update hn he hs hc g1 .bias g2
            simp only
            change Res.Rel _ (EllStable.space.update .bias e c >>= _) (EllStable.space.update .bias e' c' >>= _)
            cases u1 : EllStable.space.update .bias e c with
            | panic =>
              cases u2 : EllStable.space.update .bias e' c' with
              | panic => trivial
              | ok q => rw [u1, u2] at r1; exact r1.elim
            | ok p =>
              cases u2 : EllStable.space.update .bias e' c' with
              | panic => rw [u1, u2] at r1; exact r1.elim
              | ok q =>
                rw [u1, u2] at r1
                obtain ⟨st, f⟩ := p
                obtain ⟨st', f'⟩ := q
                obtain ⟨q1, q2⟩ := r1
                simp only at q1 q2
                subst q1
                simp only [Res.ok_bind]
                rw [show (Scalar.lt ((EllStable.space (T := T)).tsq f) tol) = Scalar.lt ((EllStable.space (T := T')).tsq f') tol' from q2.tsq.lt ht]
                split
                · exact ⟨trivial, rfl, hv, q2⟩
                · rename_i hb
                  simp only [Bool.or_eq_true, bne_iff_ne, ne_eq, not_or, not_not, Bool.not_eq_true] at hb
                  obtain ⟨hb1, hb2⟩ := hb
                  subst hb1
                  exact ih _ _ _ _ _ hv q2 (r2 _ u2) (g3 f' u2 hb2)

/-- C125: a run of `cutting_plane_feas` on `EllStable` whose steps stay in range gives in `f64` the same answer (the same point, or none), after the
same number of iterations, as in arithmetic rounded to 53 bits. -/
theorem C125_feas (orc : OracleFeas Ω (Arr B64) T B64) (orc' : OracleFeas Ω' (Arr (Fl bin53)) T' (Fl bin53)) (RΩ : Ω → Ω' → Prop)
    (P : Ω' → Arr (Fl bin53) → Prop) (hor : SameFeas orc orc' RΩ P) (opts : Options B64) (opts' : Options (Fl bin53))
    (ht : Same opts.tolerance opts'.tolerance) (hi : opts.maxIters = opts'.maxIters) (hn : 0 < n) (w : Ω) (w' : Ω') (e : EllStable B64)
    (e' : EllStable (Fl bin53)) (hw : RΩ w w') (he : e.Same64 e') (hs : e'.Shaped n)
    (ok : EllStable.FeasSafe orc' n P opts'.tolerance opts'.maxIters w' e') :
    Res.Rel (fun p q => OptRel Arr.Same p.1.1 q.1.1 ∧ p.1.2 = q.1.2 ∧ RΩ p.2.1 q.2.1 ∧ p.2.2.Same64 q.2.2)
      (cuttingPlaneFeas orc EllStable.space w e opts) (cuttingPlaneFeas orc' EllStable.space w' e' opts') := by
  unfold cuttingPlaneFeas
  rw [hi]
  exact stable_feas_same hor ht hn _ 0 w w' e e' hw he hs ok

theorem stable_optim_same {orc : OracleOptim Ω (Arr B64) T B64} {orc' : OracleOptim Ω' (Arr (Fl bin53)) T' (Fl bin53)} {RΩ : Ω → Ω' → Prop}
    {P : Ω' → Arr (Fl bin53) → Fl bin53 → Prop} (hor : SameOptim orc orc' RΩ P) {tol : B64} {tol' : Fl bin53} (ht : Same tol tol')
    (hn : 0 < n) (k : Nat) : ∀ (i : Nat) (xb : Option (Arr B64)) (xb' : Option (Arr (Fl bin53))) (w : Ω) (w' : Ω') (e : EllStable B64)
      (e' : EllStable (Fl bin53)) (γ : B64) (γ' : Fl bin53), OptRel Arr.Same xb xb' → RΩ w w' → e.Same64 e' → e'.Shaped n → Same γ γ' →
      EllStable.OptimSafe orc' n P tol' k w' e' γ' →
      Res.Rel (fun p q => OptRel Arr.Same p.1.1 q.1.1 ∧ p.1.2 = q.1.2 ∧ Same p.2.1 q.2.1 ∧ RΩ p.2.2.1 q.2.2.1 ∧ p.2.2.2.Same64 q.2.2.2)
        (optimLoop orc EllStable.space tol k i xb w e γ) (optimLoop orc' EllStable.space tol' k i xb' w' e' γ') := by
  induction k with
  | zero => intro i xb xb' w w' e e' γ γ' hx hw he _ hγ _; exact ⟨hx, rfl, hγ, hw, he⟩
  | succ k ih =>
    intro i xb xb' w w' e e' γ γ' hx hw he hs hγ ok
    obtain ⟨hP, ok⟩ := ok
    simp only [optimLoop]
    have ha := hor w w' e.xc e'.xc γ γ' hw he.xc hγ hP
    show Res.Rel _ (orc.assess w e.xc γ >>= _) (orc'.assess w' e'.xc γ' >>= _)
    cases h1 : orc.assess w e.xc γ with
    | panic =>
      cases h2 : orc'.assess w' e'.xc γ' with
      | panic => trivial
      | ok q => rw [h1, h2] at ha; exact ha.elim
    | ok p =>
      cases h2 : orc'.assess w' e'.xc γ' with
      | panic => rw [h1, h2] at ha; exact ha.elim
      | ok q =>
        rw [h1, h2] at ha
        obtain ⟨⟨c, sh⟩, g, v⟩ := p
        obtain ⟨⟨c', sh'⟩, g', v'⟩ := q
        obtain ⟨hc, hsh, hg, hv⟩ := ha
        simp only at hc hsh hg hv
        subst hsh
        simp only [Res.ok_bind]
        obtain ⟨g1, g2, g3⟩ := ok c' sh g' v' h2
        obtain ⟨r1, r2⟩ := EllStable.same_update hn he hs hc g1 _ g2
        have m1 : (if sh = true then (EllStable.space (T := T)).updateCentral e c else (EllStable.space (T := T)).updateBias e c) =
            EllStable.space.update (if sh = true then .central else .bias) e c := by cases sh <;> rfl
        have m2 : (if sh = true then (EllStable.space (T := T')).updateCentral e' c' else (EllStable.space (T := T')).updateBias e' c') =
            EllStable.space.update (if sh = true then .central else .bias) e' c' := by cases sh <;> rfl
        rw [m1, m2]
        have hx' : OptRel Arr.Same (if sh = true then some ((EllStable.space (T := T)).xc e) else xb)
            (if sh = true then some ((EllStable.space (T := T')).xc e') else xb') := by
          cases sh
          · exact hx
          · exact he.xc
        cases u1 : EllStable.space.update (if sh = true then .central else .bias) e c with
        | panic =>
          cases u2 : EllStable.space.update (if sh = true then .central else .bias) e' c' with
          | panic => trivial
          | ok q => rw [u1, u2] at r1; exact r1.elim
        | ok p =>
          cases u2 : EllStable.space.update (if sh = true then .central else .bias) e' c' with
          | panic => rw [u1, u2] at r1; exact r1.elim
          | ok q =>
            rw [u1, u2] at r1
            obtain ⟨st, f⟩ := p
            obtain ⟨st', f'⟩ := q
            obtain ⟨q1, q2⟩ := r1
            simp only at q1 q2
            subst q1
            simp only [Res.ok_bind]
            rw [show (Scalar.lt ((EllStable.space (T := T)).tsq f) tol) = Scalar.lt ((EllStable.space (T := T')).tsq f') tol' from q2.tsq.lt ht]
            split
            · exact ⟨hx', rfl, hg, hv, q2⟩
            · rename_i hb
              simp only [Bool.or_eq_true, bne_iff_ne, ne_eq, not_or, not_not, Bool.not_eq_true] at hb
              obtain ⟨hb1, hb2⟩ := hb
              subst hb1
              exact ih _ _ _ _ _ _ _ _ _ hx' hv q2 (r2 _ u2) hg (g3 f' u2 hb2)

/-- C125: a run of `cutting_plane_optim` on `EllStable` whose steps stay in range gives in `f64` the same best point, the same best value and the same
number of iterations as in arithmetic rounded to 53 bits. -/
theorem C125_optim (orc : OracleOptim Ω (Arr B64) T B64) (orc' : OracleOptim Ω' (Arr (Fl bin53)) T' (Fl bin53)) (RΩ : Ω → Ω' → Prop)
    (P : Ω' → Arr (Fl bin53) → Fl bin53 → Prop) (hor : SameOptim orc orc' RΩ P) (opts : Options B64) (opts' : Options (Fl bin53))
    (ht : Same opts.tolerance opts'.tolerance) (hi : opts.maxIters = opts'.maxIters) (hn : 0 < n) (w : Ω) (w' : Ω') (e : EllStable B64)
    (e' : EllStable (Fl bin53)) (γ : B64) (γ' : Fl bin53) (hw : RΩ w w') (he : e.Same64 e') (hs : e'.Shaped n) (hγ : Same γ γ')
    (ok : EllStable.OptimSafe orc' n P opts'.tolerance opts'.maxIters w' e' γ') :
    Res.Rel (fun p q => OptRel Arr.Same p.1.1 q.1.1 ∧ p.1.2 = q.1.2 ∧ Same p.2.1 q.2.1 ∧ RΩ p.2.2.1 q.2.2.1 ∧ p.2.2.2.Same64 q.2.2.2)
      (cuttingPlaneOptim orc EllStable.space w e γ opts) (cuttingPlaneOptim orc' EllStable.space w' e' γ' opts') := by
  unfold cuttingPlaneOptim
  rw [hi]
  exact stable_optim_same hor ht hn _ 0 none none w w' e e' γ γ' trivial hw he hs hγ ok

theorem stable_optimQ_same {orc : OracleOptimQ Ω (Arr B64) T B64} {orc' : OracleOptimQ Ω' (Arr (Fl bin53)) T' (Fl bin53)} {RΩ : Ω → Ω' → Prop}
    {P : Ω' → Arr (Fl bin53) → Fl bin53 → Bool → Prop} (hor : SameOptimQ orc orc' RΩ P) {tol : B64} {tol' : Fl bin53} (ht : Same tol tol')
    (hn : 0 < n) (k : Nat) : ∀ (i : Nat) (xb : Option (Arr B64)) (xb' : Option (Arr (Fl bin53))) (r : Bool) (w : Ω) (w' : Ω') (e : EllStable B64)
      (e' : EllStable (Fl bin53)) (γ : B64) (γ' : Fl bin53), OptRel Arr.Same xb xb' → RΩ w w' → e.Same64 e' → e'.Shaped n → Same γ γ' →
      EllStable.OptimQSafe orc' n P tol' k w' e' γ' r →
      Res.Rel (fun p q => OptRel Arr.Same p.1.1 q.1.1 ∧ p.1.2 = q.1.2 ∧ Same p.2.1 q.2.1 ∧ RΩ p.2.2.1 q.2.2.1 ∧ p.2.2.2.Same64 q.2.2.2)
        (optimQLoop orc EllStable.space tol k i xb r w e γ) (optimQLoop orc' EllStable.space tol' k i xb' r w' e' γ') := by
  induction k with
  | zero => intro i xb xb' r w w' e e' γ γ' hx hw he _ hγ _; exact ⟨hx, rfl, hγ, hw, he⟩
  | succ k ih =>
    intro i xb xb' r w w' e e' γ γ' hx hw he hs hγ ok
    obtain ⟨hP, ok⟩ := ok
    simp only [optimQLoop]
    have ha := hor w w' e.xc e'.xc γ γ' r hw he.xc hγ hP
    show Res.Rel _ (orc.assess w e.xc γ r >>= _) (orc'.assess w' e'.xc γ' r >>= _)
    cases h1 : orc.assess w e.xc γ r with
    | panic =>
      cases h2 : orc'.assess w' e'.xc γ' r with
      | panic => trivial
      | ok q => rw [h1, h2] at ha; exact ha.elim
    | ok p =>
      cases h2 : orc'.assess w' e'.xc γ' r with
      | panic => rw [h1, h2] at ha; exact ha.elim
      | ok q =>
        rw [h1, h2] at ha
        obtain ⟨⟨c, sh, xq, mo⟩, g, v⟩ := p
        obtain ⟨⟨c', sh', xq', mo'⟩, g', v'⟩ := q
        obtain ⟨hc, hsh, hxq, hmo, hg, hv⟩ := ha
        simp only at hc hsh hxq hmo hg hv
        subst hsh hmo
        simp only [Res.ok_bind]
        obtain ⟨g1, g2, g3⟩ := ok c' sh xq' mo g' v' h2
        obtain ⟨r1, r2⟩ := EllStable.same_update hn he hs hc g1 .q g2
        have hx' : OptRel Arr.Same (if sh = true then some xq else xb) (if sh = true then some xq' else xb') := by
          cases sh
          · exact hx
          · exact hxq
        change Res.Rel _ (EllStable.space.update .q e c >>= _) (EllStable.space.update .q e' c' >>= _)
        cases u1 : EllStable.space.update .q e c with
        | panic =>
          cases u2 : EllStable.space.update .q e' c' with
          | panic => trivial
          | ok q => rw [u1, u2] at r1; exact r1.elim
        | ok p =>
          cases u2 : EllStable.space.update .q e' c' with
          | panic => rw [u1, u2] at r1; exact r1.elim
          | ok q =>
            rw [u1, u2] at r1
            obtain ⟨st, f⟩ := p
            obtain ⟨st', f'⟩ := q
            obtain ⟨q1, q2⟩ := r1
            simp only at q1 q2
            subst q1
            simp only [Res.ok_bind]
            have hlt : (Scalar.lt ((EllStable.space (T := T)).tsq f) tol) = Scalar.lt ((EllStable.space (T := T')).tsq f') tol' := q2.tsq.lt ht
            have hsh' := r2 _ u2
            have done : Res.Rel (fun p q => OptRel Arr.Same p.1.1 q.1.1 ∧ p.1.2 = q.1.2 ∧ Same p.2.1 q.2.1 ∧ RΩ p.2.2.1 q.2.2.1 ∧
                p.2.2.2.Same64 q.2.2.2)
                (Res.ok (((if sh = true then some xq else xb), i), g, v, f) : Res ((Option (Arr B64) × Nat) × B64 × Ω × EllStable B64))
                (Res.ok (((if sh = true then some xq' else xb'), i), g', v', f') :
                  Res ((Option (Arr (Fl bin53)) × Nat) × Fl bin53 × Ω' × EllStable (Fl bin53))) := ⟨hx', rfl, hg, hv, q2⟩
            cases st with
            | noSoln => exact done
            | noEffect =>
              simp only [hlt]
              cases mo with
              | false => exact done
              | true =>
                simp only [Bool.not_true, Bool.false_eq_true, if_false]
                cases hb : Scalar.lt ((EllStable.space (T := T')).tsq f') tol' with
                | true => exact done
                | false => exact ih _ _ _ _ _ _ _ _ _ _ hx' hv q2 hsh' hg ((g3 _ f' u2 hb).2.1 rfl rfl)
            | success =>
              simp only [hlt]
              cases hb : Scalar.lt ((EllStable.space (T := T')).tsq f') tol' with
              | true => exact done
              | false => exact ih _ _ _ _ _ _ _ _ _ _ hx' hv q2 hsh' hg ((g3 _ f' u2 hb).1 rfl)
            | unknown =>
              simp only [hlt]
              cases hb : Scalar.lt ((EllStable.space (T := T')).tsq f') tol' with
              | true => exact done
              | false => exact ih _ _ _ _ _ _ _ _ _ _ hx' hv q2 hsh' hg ((g3 _ f' u2 hb).2.2 rfl)

/-- C125: a run of `cutting_plane_optim_q` on `EllStable` whose steps stay in range gives in `f64` the same best discrete point, the same best value and
the same number of iterations as in arithmetic rounded to 53 bits. -/
theorem C125_optim_q (orc : OracleOptimQ Ω (Arr B64) T B64) (orc' : OracleOptimQ Ω' (Arr (Fl bin53)) T' (Fl bin53)) (RΩ : Ω → Ω' → Prop)
    (P : Ω' → Arr (Fl bin53) → Fl bin53 → Bool → Prop) (hor : SameOptimQ orc orc' RΩ P) (opts : Options B64) (opts' : Options (Fl bin53))
    (ht : Same opts.tolerance opts'.tolerance) (hi : opts.maxIters = opts'.maxIters) (hn : 0 < n) (w : Ω) (w' : Ω') (e : EllStable B64)
    (e' : EllStable (Fl bin53)) (γ : B64) (γ' : Fl bin53) (hw : RΩ w w') (he : e.Same64 e') (hs : e'.Shaped n) (hγ : Same γ γ')
    (ok : EllStable.OptimQSafe orc' n P opts'.tolerance opts'.maxIters w' e' γ' false) :
    Res.Rel (fun p q => OptRel Arr.Same p.1.1 q.1.1 ∧ p.1.2 = q.1.2 ∧ Same p.2.1 q.2.1 ∧ RΩ p.2.2.1 q.2.2.1 ∧ p.2.2.2.Same64 q.2.2.2)
      (cuttingPlaneOptimQ orc EllStable.space w e γ opts) (cuttingPlaneOptimQ orc' EllStable.space w' e' γ' opts') := by
  unfold cuttingPlaneOptimQ
  rw [hi]
  exact stable_optimQ_same hor ht hn _ 0 none none false w w' e e' γ γ' trivial hw he hs hγ ok

end Ellalgo

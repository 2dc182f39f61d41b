import Verif.Spec.Binary64RunQ
import Verif.Props.Binary64RunExamples

/-! C109 for `cutting_plane_optim_q`. -/

namespace Ellalgo

variable {n : Nat} {T T' Ω Ω' : Type} [Cut64 T T'] [CutType T B64] [CutType T' (Fl bin53)] [LawfulCut64 T T']

theorem optimQ_same {orc : OracleOptimQ Ω (Arr B64) T B64} {orc' : OracleOptimQ Ω' (Arr (Fl bin53)) T' (Fl bin53)} {RΩ : Ω → Ω' → Prop}
    {P : Ω' → Arr (Fl bin53) → Fl bin53 → Bool → Prop} (hor : SameOptimQ orc orc' RΩ P) {tol : B64} {tol' : Fl bin53} (ht : Same tol tol')
    (hn : 0 < n) (k : Nat) : ∀ (i : Nat) (xb : Option (Arr B64)) (xb' : Option (Arr (Fl bin53))) (r : Bool) (w : Ω) (w' : Ω') (e : Ell B64)
      (e' : Ell (Fl bin53)) (γ : B64) (γ' : Fl bin53), OptRel Arr.Same xb xb' → RΩ w w' → e.Same64 e' → e'.Shaped n → Same γ γ' →
      OptimQSafe orc' n P tol' k w' e' γ' r →
      Res.Rel (fun p q => OptRel Arr.Same p.1.1 q.1.1 ∧ p.1.2 = q.1.2 ∧ Same p.2.1 q.2.1 ∧ RΩ p.2.2.1 q.2.2.1 ∧ p.2.2.2.Same64 q.2.2.2)
        (optimQLoop orc Ell.space tol k i xb r w e γ) (optimQLoop orc' Ell.space tol' k i xb' r w' e' γ') := by
  induction k with
  | zero => intro i xb xb' r w w' e e' γ γ' hx hw he _ hγ _; exact ⟨hx, rfl, hγ, hw, he⟩
  | succ k ih =>
    intro i xb xb' r w w' e e' γ γ' hx hw he hs hγ ok
    obtain ⟨hP, ok⟩ := ok
    simp only [optimQLoop]
    have ha := hor w w' e.xc e'.xc γ γ' r hw he.xc hγ hP
    show Res.Rel _ (orc.assess w e.xc γ r >>= _) (orc'.assess w' e'.xc γ' r >>= _)
    cases h1 : orc.assess w e.xc γ r with
    | panic =>
      cases h2 : orc'.assess w' e'.xc γ' r with
      | panic => trivial
      | ok q => rw [h1, h2] at ha; exact ha.elim
    | ok p =>
      cases h2 : orc'.assess w' e'.xc γ' r with
      | panic => rw [h1, h2] at ha; exact ha.elim
      | ok q =>
        rw [h1, h2] at ha
        obtain ⟨⟨c, sh, xq, mo⟩, g, v⟩ := p
        obtain ⟨⟨c', sh', xq', mo'⟩, g', v'⟩ := q
        obtain ⟨hc, hsh, hxq, hmo, hg, hv⟩ := ha
        simp only at hc hsh hxq hmo hg hv
        subst hsh hmo
        simp only [Res.ok_bind]
        obtain ⟨g1, g2, g3⟩ := ok c' sh xq' mo g' v' h2
        obtain ⟨r1, r2⟩ := same_update hn he hs hc g1 .q g2
        have hx' : OptRel Arr.Same (if sh = true then some xq else xb) (if sh = true then some xq' else xb') := by
          cases sh
          · exact hx
          · exact hxq
        change Res.Rel _ (Ell.space.update .q e c >>= _) (Ell.space.update .q e' c' >>= _)
        cases u1 : Ell.space.update .q e c with
        | panic =>
          cases u2 : Ell.space.update .q e' c' with
          | panic => trivial
          | ok q => rw [u1, u2] at r1; exact r1.elim
        | ok p =>
          cases u2 : Ell.space.update .q e' c' with
          | panic => rw [u1, u2] at r1; exact r1.elim
          | ok q =>
            rw [u1, u2] at r1
            obtain ⟨st, f⟩ := p
            obtain ⟨st', f'⟩ := q
            obtain ⟨q1, q2⟩ := r1
            simp only at q1 q2
            subst q1
            simp only [Res.ok_bind]
            have hlt : (Scalar.lt ((Ell.space (T := T)).tsq f) tol) = Scalar.lt ((Ell.space (T := T')).tsq f') tol' := q2.tsq.lt ht
            have hsh' := r2 _ u2
            have done : Res.Rel (fun p q => OptRel Arr.Same p.1.1 q.1.1 ∧ p.1.2 = q.1.2 ∧ Same p.2.1 q.2.1 ∧ RΩ p.2.2.1 q.2.2.1 ∧
                p.2.2.2.Same64 q.2.2.2)
                (Res.ok (((if sh = true then some xq else xb), i), g, v, f) : Res ((Option (Arr B64) × Nat) × B64 × Ω × Ell B64))
                (Res.ok (((if sh = true then some xq' else xb'), i), g', v', f') :
                  Res ((Option (Arr (Fl bin53)) × Nat) × Fl bin53 × Ω' × Ell (Fl bin53))) := ⟨hx', rfl, hg, hv, q2⟩
            cases st with
            | noSoln => exact done
            | noEffect =>
              simp only [hlt]
              cases mo with
              | false => exact done
              | true =>
                simp only [Bool.not_true, Bool.false_eq_true, if_false]
                cases hb : Scalar.lt ((Ell.space (T := T')).tsq f') tol' with
                | true => exact done
                | false => exact ih _ _ _ _ _ _ _ _ _ _ hx' hv q2 hsh' hg ((g3 _ f' u2 hb).2.1 rfl rfl)
            | success =>
              simp only [hlt]
              cases hb : Scalar.lt ((Ell.space (T := T')).tsq f') tol' with
              | true => exact done
              | false => exact ih _ _ _ _ _ _ _ _ _ _ hx' hv q2 hsh' hg ((g3 _ f' u2 hb).1 rfl)
            | unknown =>
              simp only [hlt]
              cases hb : Scalar.lt ((Ell.space (T := T')).tsq f') tol' with
              | true => exact done
              | false => exact ih _ _ _ _ _ _ _ _ _ _ hx' hv q2 hsh' hg ((g3 _ f' u2 hb).2.2 rfl)

/-- C109: a run of `cutting_plane_optim_q` whose steps stay in range gives in `f64` the same best discrete point, the same best value and
the same number of iterations as in arithmetic rounded to 53 bits. -/
theorem C109_optim_q (orc : OracleOptimQ Ω (Arr B64) T B64) (orc' : OracleOptimQ Ω' (Arr (Fl bin53)) T' (Fl bin53)) (RΩ : Ω → Ω' → Prop)
    (P : Ω' → Arr (Fl bin53) → Fl bin53 → Bool → Prop) (hor : SameOptimQ orc orc' RΩ P) (opts : Options B64) (opts' : Options (Fl bin53))
    (ht : Same opts.tolerance opts'.tolerance) (hi : opts.maxIters = opts'.maxIters) (hn : 0 < n) (w : Ω) (w' : Ω') (e : Ell B64)
    (e' : Ell (Fl bin53)) (γ : B64) (γ' : Fl bin53) (hw : RΩ w w') (he : e.Same64 e') (hs : e'.Shaped n) (hγ : Same γ γ')
    (ok : OptimQSafe orc' n P opts'.tolerance opts'.maxIters w' e' γ' false) :
    Res.Rel (fun p q => OptRel Arr.Same p.1.1 q.1.1 ∧ p.1.2 = q.1.2 ∧ Same p.2.1 q.2.1 ∧ RΩ p.2.2.1 q.2.2.1 ∧ p.2.2.2.Same64 q.2.2.2)
      (cuttingPlaneOptimQ orc Ell.space w e γ opts) (cuttingPlaneOptimQ orc' Ell.space w' e' γ' opts') := by
  unfold cuttingPlaneOptimQ
  rw [hi]
  exact optimQ_same hor ht hn _ 0 none none false w w' e e' γ γ' trivial hw he hs hγ ok

namespace ExRun64

theorem one_not_neg : Scalar.lt (1 : Fl bin53) 0 = false := decide_eq_false (by show ¬ (1 : ℝ) < 0; norm_num)

theorem call_q : CutType.call .q (cut (α := Fl bin53)).2 (disc : Ell (Fl bin53)).helper 1 =
    CutType.call .bias (cut (α := Fl bin53)).2 (disc : Ell (Fl bin53)).helper 1 := by
  rw [call_eq]
  show EllCalc.calcBiasCutQ (EllCalc.new 2 : EllCalc (Fl bin53)) 0 1 = _
  unfold EllCalc.calcBiasCutQ EllCalcCore.calcBiasCutFast
  simp only [sqrt_one, mul_zero_x, one_add_zero, zero_div_one, one_sub_zero, one_not_neg, Bool.false_eq_true, if_false]

theorem update_safe_q : Ell.Safe 2 .q (disc : Ell (Fl bin53)) cut := by
  obtain ⟨k1, k2, k3, k4, k5, k6, k7⟩ := update_safe
  have hk : (disc : Ell (Fl bin53)).kappa * Ell.om 2 (disc : Ell (Fl bin53)).mq.mat (cut (α := Fl bin53)).1.vec = 1 := by
    rw [om1, show (disc : Ell (Fl bin53)).kappa = 1 from rfl, one_mul_one]
  refine ⟨k1, k2, k3, k4, k5, ?_, ?_⟩
  · rw [hk]
    obtain ⟨-, h⟩ := bias_safe
    obtain ⟨h1, h2, h3, h4⟩ := h (by rw [zero_mul_x]; exact one_not_neg)
    refine ⟨h1, fun _ => ?_⟩
    rw [sqrt_one] at h3 h4 ⊢
    exact ⟨h2, h3, fun _ => h4⟩
  · rw [hk, call_q]
    rw [hk] at k7
    exact k7

/-- cuts through the origin, reports an improvement at the point `(1, 0)` -/
def orcQ {α : Type} [Scalar α] : OracleOptimQ Unit (Arr α) (SingleCut α) α := ⟨fun w _ γ _ => .ok ((cut, true, ⟨[1, 0], 2, 0⟩, false), γ, w)⟩

/-- C109: a run of the discrete optimisation loop -/
example : Res.Rel (fun p q => OptRel Arr.Same p.1.1 q.1.1 ∧ p.1.2 = q.1.2 ∧ Same p.2.1 q.2.1 ∧ True ∧ p.2.2.2.Same64 q.2.2.2)
    (cuttingPlaneOptimQ orcQ Ell.space () (disc : Ell B64) 1 ⟨1, 0⟩)
    (cuttingPlaneOptimQ orcQ Ell.space () (disc : Ell (Fl bin53)) 1 ⟨1, 0⟩) := by
  refine C109_optim_q (n := 2) orcQ orcQ (fun _ _ => True) (fun _ _ _ _ => True) ?_ _ _ .zero rfl (by norm_num) () () disc disc 1 1 trivial
    disc_same ⟨⟨rfl, rfl, rfl⟩, ⟨rfl, rfl, rfl⟩⟩ .one ⟨trivial, ?_⟩
  · intro w w' x x' g g' r _ _ hg _
    exact ⟨⟨⟨rfl, rfl, .cons .one (.cons .zero .nil)⟩, Same.zero⟩, rfl, ⟨rfl, rfl, .cons .one (.cons .zero .nil)⟩, rfl, hg, trivial⟩
  · intro c s x more g' w' h
    simp only [orcQ, Res.ok.injEq, Prod.mk.injEq] at h
    obtain ⟨⟨rfl, rfl, rfl, rfl⟩, -, -⟩ := h
    exact ⟨⟨rfl, rfl, rfl⟩, update_safe_q, fun st e' _ _ => ⟨fun _ => trivial, fun _ h => (by cases h), fun _ => trivial⟩⟩

end ExRun64
end Ellalgo

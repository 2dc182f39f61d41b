import Verif.Lib.Same64
import Verif.Lib.Pw64
import Verif.Props.RoundedOptimF64

/-! C109: as long as nothing leaves the range of `f64`, runs in IEEE-754 `f64` are the runs in arithmetic rounded to 53 bits. -/

namespace Ellalgo

variable {n : Nat} {T T' Ω Ω' : Type} [Cut64 T T'] [CutType T B64] [CutType T' (Fl bin53)] [LawfulCut64 T T']

/-- C109: an update (bias, central or discrete; one cut or two) whose operations stay in range gives in `f64` the same status, and the
same centre, matrix, `kappa` and `tsq`, as in arithmetic rounded to 53 bits. -/
theorem C109_update {e : Ell B64} {e' : Ell (Fl bin53)} {c : Arr B64 × T} {c' : Arr (Fl bin53) × T'} (hn : 0 < n) (he : e.Same64 e')
    (hs : e'.Shaped n) (hc : SameCut c c') (hg : c'.1.IsVecShape n) (k : UpdateKind) (ok : Ell.Safe n k e' c') :
    Res.Rel (fun p q => p.1 = q.1 ∧ p.2.Same64 q.2) (Ell.space.update k e c) (Ell.space.update k e' c') :=
  (same_update hn he hs hc hg k ok).1

theorem feas_same {orc : OracleFeas Ω (Arr B64) T B64} {orc' : OracleFeas Ω' (Arr (Fl bin53)) T' (Fl bin53)} {RΩ : Ω → Ω' → Prop}
    {P : Ω' → Arr (Fl bin53) → Prop} (hor : SameFeas orc orc' RΩ P) {tol : B64} {tol' : Fl bin53} (ht : Same tol tol') (hn : 0 < n)
    (k : Nat) : ∀ (i : Nat) (w : Ω) (w' : Ω') (e : Ell B64) (e' : Ell (Fl bin53)), RΩ w w' → e.Same64 e' → e'.Shaped n →
      FeasSafe orc' n P tol' k w' e' →
      Res.Rel (fun p q => OptRel Arr.Same p.1.1 q.1.1 ∧ p.1.2 = q.1.2 ∧ RΩ p.2.1 q.2.1 ∧ p.2.2.Same64 q.2.2)
        (feasLoop orc Ell.space tol k i w e) (feasLoop orc' Ell.space tol' k i w' e') := by
  induction k with
  | zero => intro i w w' e e' hw he _ _; exact ⟨trivial, rfl, hw, he⟩
  | succ k ih =>
    intro i w w' e e' hw he hs ok
    obtain ⟨hP, ok⟩ := ok
    simp only [feasLoop]
    have ha : Res.Rel (fun p q => OptRel SameCut p.1 q.1 ∧ RΩ p.2 q.2) (orc.assess w e.xc) (orc'.assess w' e'.xc) :=
      hor w w' e.xc e'.xc hw he.xc hP
    show Res.Rel _ (orc.assess w e.xc >>= _) (orc'.assess w' e'.xc >>= _)
    cases h1 : orc.assess w e.xc with
    | panic =>
      cases h2 : orc'.assess w' e'.xc with
      | panic => trivial
      | ok q => rw [h1, h2] at ha; exact ha.elim
    | ok p =>
      cases h2 : orc'.assess w' e'.xc with
      | panic => rw [h1, h2] at ha; exact ha.elim
      | ok q =>
        rw [h1, h2] at ha
        obtain ⟨cut, v⟩ := p
        obtain ⟨cut', v'⟩ := q
        obtain ⟨hc, hv⟩ := ha
        simp only [Res.ok_bind]
        simp only at hc hv
        cases cut with
        | none =>
          cases cut' with
          | none => exact ⟨he.xc, rfl, hv, he⟩
          | some c' => exact hc.elim
        | some c =>
          cases cut' with
          | none => exact hc.elim
          | some c' =>
            obtain ⟨g1, g2, g3⟩ := ok c' v' h2
            obtain ⟨r1, r2⟩ := same_update hn he hs hc g1 .bias g2
            simp only
            change Res.Rel _ (Ell.space.update .bias e c >>= _) (Ell.space.update .bias e' c' >>= _)
            cases u1 : Ell.space.update .bias e c with
            | panic =>
              cases u2 : Ell.space.update .bias e' c' with
              | panic => trivial
              | ok q => rw [u1, u2] at r1; exact r1.elim
            | ok p =>
              cases u2 : Ell.space.update .bias e' c' with
              | panic => rw [u1, u2] at r1; exact r1.elim
              | ok q =>
                rw [u1, u2] at r1
                obtain ⟨st, f⟩ := p
                obtain ⟨st', f'⟩ := q
                obtain ⟨q1, q2⟩ := r1
                simp only at q1 q2
                subst q1
                simp only [Res.ok_bind]
                rw [show (Scalar.lt ((Ell.space (T := T)).tsq f) tol) = Scalar.lt ((Ell.space (T := T')).tsq f') tol' from q2.tsq.lt ht]
                split
                · exact ⟨trivial, rfl, hv, q2⟩
                · rename_i hb
                  simp only [Bool.or_eq_true, bne_iff_ne, ne_eq, not_or, not_not, Bool.not_eq_true] at hb
                  obtain ⟨hb1, hb2⟩ := hb
                  subst hb1
                  exact ih _ _ _ _ _ hv q2 (r2 _ u2) (g3 f' u2 hb2)

/-- C109: a run of `cutting_plane_feas` whose steps stay in range gives in `f64` the same answer (the same point, or none), after the
same number of iterations, as in arithmetic rounded to 53 bits. -/
theorem C109_feas (orc : OracleFeas Ω (Arr B64) T B64) (orc' : OracleFeas Ω' (Arr (Fl bin53)) T' (Fl bin53)) (RΩ : Ω → Ω' → Prop)
    (P : Ω' → Arr (Fl bin53) → Prop) (hor : SameFeas orc orc' RΩ P) (opts : Options B64) (opts' : Options (Fl bin53))
    (ht : Same opts.tolerance opts'.tolerance) (hi : opts.maxIters = opts'.maxIters) (hn : 0 < n) (w : Ω) (w' : Ω') (e : Ell B64)
    (e' : Ell (Fl bin53)) (hw : RΩ w w') (he : e.Same64 e') (hs : e'.Shaped n)
    (ok : FeasSafe orc' n P opts'.tolerance opts'.maxIters w' e') :
    Res.Rel (fun p q => OptRel Arr.Same p.1.1 q.1.1 ∧ p.1.2 = q.1.2 ∧ RΩ p.2.1 q.2.1 ∧ p.2.2.Same64 q.2.2)
      (cuttingPlaneFeas orc Ell.space w e opts) (cuttingPlaneFeas orc' Ell.space w' e' opts') := by
  unfold cuttingPlaneFeas
  rw [hi]
  exact feas_same hor ht hn _ 0 w w' e e' hw he hs ok

theorem optim_same {orc : OracleOptim Ω (Arr B64) T B64} {orc' : OracleOptim Ω' (Arr (Fl bin53)) T' (Fl bin53)} {RΩ : Ω → Ω' → Prop}
    {P : Ω' → Arr (Fl bin53) → Fl bin53 → Prop} (hor : SameOptim orc orc' RΩ P) {tol : B64} {tol' : Fl bin53} (ht : Same tol tol')
    (hn : 0 < n) (k : Nat) : ∀ (i : Nat) (xb : Option (Arr B64)) (xb' : Option (Arr (Fl bin53))) (w : Ω) (w' : Ω') (e : Ell B64)
      (e' : Ell (Fl bin53)) (γ : B64) (γ' : Fl bin53), OptRel Arr.Same xb xb' → RΩ w w' → e.Same64 e' → e'.Shaped n → Same γ γ' →
      OptimSafe orc' n P tol' k w' e' γ' →
      Res.Rel (fun p q => OptRel Arr.Same p.1.1 q.1.1 ∧ p.1.2 = q.1.2 ∧ Same p.2.1 q.2.1 ∧ RΩ p.2.2.1 q.2.2.1 ∧ p.2.2.2.Same64 q.2.2.2)
        (optimLoop orc Ell.space tol k i xb w e γ) (optimLoop orc' Ell.space tol' k i xb' w' e' γ') := by
  induction k with
  | zero => intro i xb xb' w w' e e' γ γ' hx hw he _ hγ _; exact ⟨hx, rfl, hγ, hw, he⟩
  | succ k ih =>
    intro i xb xb' w w' e e' γ γ' hx hw he hs hγ ok
    obtain ⟨hP, ok⟩ := ok
    simp only [optimLoop]
    have ha := hor w w' e.xc e'.xc γ γ' hw he.xc hγ hP
    show Res.Rel _ (orc.assess w e.xc γ >>= _) (orc'.assess w' e'.xc γ' >>= _)
    cases h1 : orc.assess w e.xc γ with
    | panic =>
      cases h2 : orc'.assess w' e'.xc γ' with
      | panic => trivial
      | ok q => rw [h1, h2] at ha; exact ha.elim
    | ok p =>
      cases h2 : orc'.assess w' e'.xc γ' with
      | panic => rw [h1, h2] at ha; exact ha.elim
      | ok q =>
        rw [h1, h2] at ha
        obtain ⟨⟨c, sh⟩, g, v⟩ := p
        obtain ⟨⟨c', sh'⟩, g', v'⟩ := q
        obtain ⟨hc, hsh, hg, hv⟩ := ha
        simp only at hc hsh hg hv
        subst hsh
        simp only [Res.ok_bind]
        obtain ⟨g1, g2, g3⟩ := ok c' sh g' v' h2
        obtain ⟨r1, r2⟩ := same_update hn he hs hc g1 _ g2
        have m1 : (if sh = true then (Ell.space (T := T)).updateCentral e c else (Ell.space (T := T)).updateBias e c) =
            Ell.space.update (if sh = true then .central else .bias) e c := by cases sh <;> rfl
        have m2 : (if sh = true then (Ell.space (T := T')).updateCentral e' c' else (Ell.space (T := T')).updateBias e' c') =
            Ell.space.update (if sh = true then .central else .bias) e' c' := by cases sh <;> rfl
        rw [m1, m2]
        have hx' : OptRel Arr.Same (if sh = true then some ((Ell.space (T := T)).xc e) else xb)
            (if sh = true then some ((Ell.space (T := T')).xc e') else xb') := by
          cases sh
          · exact hx
          · exact he.xc
        cases u1 : Ell.space.update (if sh = true then .central else .bias) e c with
        | panic =>
          cases u2 : Ell.space.update (if sh = true then .central else .bias) e' c' with
          | panic => trivial
          | ok q => rw [u1, u2] at r1; exact r1.elim
        | ok p =>
          cases u2 : Ell.space.update (if sh = true then .central else .bias) e' c' with
          | panic => rw [u1, u2] at r1; exact r1.elim
          | ok q =>
            rw [u1, u2] at r1
            obtain ⟨st, f⟩ := p
            obtain ⟨st', f'⟩ := q
            obtain ⟨q1, q2⟩ := r1
            simp only at q1 q2
            subst q1
            simp only [Res.ok_bind]
            rw [show (Scalar.lt ((Ell.space (T := T)).tsq f) tol) = Scalar.lt ((Ell.space (T := T')).tsq f') tol' from q2.tsq.lt ht]
            split
            · exact ⟨hx', rfl, hg, hv, q2⟩
            · rename_i hb
              simp only [Bool.or_eq_true, bne_iff_ne, ne_eq, not_or, not_not, Bool.not_eq_true] at hb
              obtain ⟨hb1, hb2⟩ := hb
              subst hb1
              exact ih _ _ _ _ _ _ _ _ _ hx' hv q2 (r2 _ u2) hg (g3 f' u2 hb2)

/-- C109: a run of `cutting_plane_optim` whose steps stay in range gives in `f64` the same best point, the same best value and the same
number of iterations as in arithmetic rounded to 53 bits. -/
theorem C109_optim (orc : OracleOptim Ω (Arr B64) T B64) (orc' : OracleOptim Ω' (Arr (Fl bin53)) T' (Fl bin53)) (RΩ : Ω → Ω' → Prop)
    (P : Ω' → Arr (Fl bin53) → Fl bin53 → Prop) (hor : SameOptim orc orc' RΩ P) (opts : Options B64) (opts' : Options (Fl bin53))
    (ht : Same opts.tolerance opts'.tolerance) (hi : opts.maxIters = opts'.maxIters) (hn : 0 < n) (w : Ω) (w' : Ω') (e : Ell B64)
    (e' : Ell (Fl bin53)) (γ : B64) (γ' : Fl bin53) (hw : RΩ w w') (he : e.Same64 e') (hs : e'.Shaped n) (hγ : Same γ γ')
    (ok : OptimSafe orc' n P opts'.tolerance opts'.maxIters w' e' γ') :
    Res.Rel (fun p q => OptRel Arr.Same p.1.1 q.1.1 ∧ p.1.2 = q.1.2 ∧ Same p.2.1 q.2.1 ∧ RΩ p.2.2.1 q.2.2.1 ∧ p.2.2.2.Same64 q.2.2.2)
      (cuttingPlaneOptim orc Ell.space w e γ opts) (cuttingPlaneOptim orc' Ell.space w' e' γ' opts') := by
  unfold cuttingPlaneOptim
  rw [hi]
  exact optim_same hor ht hn _ 0 none none w w' e e' γ γ' trivial hw he hs hγ ok

/-- C109: the constants computed by the constructors are the same for every dimension from 2 to `2⁶⁴`, so constructors given the same
numbers give the same search space. -/
theorem C109_new (κ : B64) (κ' : Fl bin53) (mq xc : Arr B64) (mq' xc' : Arr (Fl bin53)) (hκ : Same κ κ') (hm : mq.Same mq')
    (hx : xc.Same xc') (h2 : 2 ≤ xc'.len) (h64 : xc'.len ≤ 2 ^ 64) : (Ell.newWithMatrix κ mq xc).Same64 (Ell.newWithMatrix κ' mq' xc') := by
  have hl : xc.len = xc'.len := hx.data.length_eq
  refine ⟨rfl, hm, hx, hκ, ?_, .zero⟩
  show (EllCalc.new xc.len).Same (EllCalc.new xc'.len)
  rw [hl]
  exact same_new h2 h64

/-- C109 with C104: in IEEE-754 `f64`, `cutting_plane_feas` started with the unit disc returns a point its oracle accepts, within 16
cuts, for every set that contains a disc of radius `1/4` around a point of norm at most `3/4` and every oracle that answers with central
cuts honest in `f64`, provided no step of the run leaves the range of `f64`.  `orc'` is the oracle on numbers without exponent range. -/
theorem C109_disc_f64 (orc : OracleFeas Ω (Arr B64) (SingleCut B64) B64)
    (orc' : OracleFeas Ω' (Arr (Fl bin53)) (SingleCut (Fl bin53)) (Fl bin53)) (RΩ : Ω → Ω' → Prop) (P : Ω' → Arr (Fl bin53) → Prop)
    (hsame : SameFeas orc orc' RΩ P) (I : Ω' → Prop) (K : Set (Fin 2 → ℝ)) (G : ℝ) (m : Fin 2 → ℝ) (w : Ω) (w' : Ω') (e : Ell B64)
    (e' : Ell (Fl bin53)) (opts : Options B64) (opts' : Options (Fl bin53)) (hw : RΩ w w') (hee : e.Same64 e')
    (ht : Same opts.tolerance opts'.tolerance) (hi : opts.maxIters = opts'.maxIters)
    (he : e'.Shaped 2) (hh : e'.helper = EllCalc.new 2) (hκ : e'.kappa.val = 1) (hM : e'.mq.flMat 2 = 1)
    (hc : e'.xc.flVec 2 = 0) (hm : norm2 m ≤ 3 / 4) (hK : ball m (1 / 4) ⊆ K) (hI : I w') (hor : FlHonest 2 orc' I K G 27)
    (hcen : OnlyCentral orc') (htol : opts'.tolerance.val ≤ G ^ 2 / 40) (hit : 17 ≤ opts'.maxIters)
    (ok : FeasSafe orc' 2 P opts'.tolerance opts'.maxIters w' e') :
    ∃ x k v f, cuttingPlaneFeas orc Ell.space w e opts = .ok ((some x, k), v, f) ∧ k < 17 ∧ x.IsVecShape 2 ∧
      (∀ y ∈ x.data, y.Finite) ∧ ∃ w1 x1 v1, I w1 ∧ x.Same x1 ∧ orc'.assess w1 x1 = .ok (none, v1) := by
  obtain ⟨x1, k, w1, v1, f1, a1, a2, a3, a4, a5⟩ := C104_disc_f64 orc' I K G m w' e' opts' he hh hκ hM hc hm hK hI hor hcen htol hit
  have h := C109_feas orc orc' RΩ P hsame opts opts' ht hi (by norm_num : 0 < 2) w w' e e' hw hee he ok
  rw [a1] at h
  cases hr : cuttingPlaneFeas orc Ell.space w e opts with
  | panic => rw [hr] at h; exact h.elim
  | ok p =>
    rw [hr] at h
    obtain ⟨⟨x, k'⟩, v, f⟩ := p
    obtain ⟨b1, b2, -, -⟩ := h
    simp only at b1 b2
    subst b2
    cases x with
    | none => exact b1.elim
    | some x =>
      refine ⟨x, k', v, f, rfl, a5, Arr.Same.vecShape b1 a4, fun y hy => ?_, w1, x1, v1, a3, b1, a2⟩
      obtain ⟨i, hi, rfl⟩ := List.mem_iff_getElem.1 hy
      exact ((List.forall₂_iff_get.1 b1.data).2 i hi (by rw [← b1.data.length_eq]; exact hi)).1

/-- C109 with C105: in IEEE-754 `f64`, `cutting_plane_optim` started with the unit disc returns a finite value for which no disc of radius
`1/4` around a point of norm at most `3/4` has only better points, for every oracle that answers with central cuts honest in `f64`,
provided no step of the run leaves the range of `f64`. -/
theorem C109_disc_optim_f64 (orc : OracleOptim Ω (Arr B64) (SingleCut B64) B64)
    (orc' : OracleOptim Ω' (Arr (Fl bin53)) (SingleCut (Fl bin53)) (Fl bin53)) (RΩ : Ω → Ω' → Prop)
    (P : Ω' → Arr (Fl bin53) → Fl bin53 → Prop) (hsame : SameOptim orc orc' RΩ P) (I : Ω' → Fl bin53 → Prop)
    (S : ℝ → Set (Fin 2 → ℝ)) (G : ℝ) (w : Ω) (w' : Ω') (e : Ell B64) (e' : Ell (Fl bin53)) (γ : B64) (γ' : Fl bin53)
    (opts : Options B64) (opts' : Options (Fl bin53)) (hw : RΩ w w') (hee : e.Same64 e') (hγ : Same γ γ')
    (ht : Same opts.tolerance opts'.tolerance) (hi : opts.maxIters = opts'.maxIters)
    (he : e'.Shaped 2) (hh : e'.helper = EllCalc.new 2) (hκ : e'.kappa.val = 1) (hM : e'.mq.flMat 2 = 1)
    (hc : e'.xc.flVec 2 = 0) (hI : I w' γ') (hor : FlHonestOptim 2 orc' I S G 27)
    (hcen : OnlyCentralOptim orc') (htol : opts'.tolerance.val ≤ G ^ 2 / 40) (hit : 17 ≤ opts'.maxIters)
    (ok : OptimSafe orc' 2 P opts'.tolerance opts'.maxIters w' e' γ') :
    ∃ xb k g v f, cuttingPlaneOptim orc Ell.space w e γ opts = .ok ((xb, k), g, v, f) ∧ g.Finite ∧
      ∀ m, norm2 m ≤ 3 / 4 → ¬ ball m (1 / 4) ⊆ S g.val := by
  obtain ⟨xb1, k1, g1, v1, f1, a1, a2⟩ := C105_disc_f64 orc' I S G w' e' γ' opts' he hh hκ hM hc hI hor hcen htol hit
  have h := C109_optim orc orc' RΩ P hsame opts opts' ht hi (by norm_num : 0 < 2) w w' e e' γ γ' hw hee he hγ ok
  rw [a1] at h
  cases hr : cuttingPlaneOptim orc Ell.space w e γ opts with
  | panic => rw [hr] at h; exact h.elim
  | ok p =>
    rw [hr] at h
    obtain ⟨⟨xb, k⟩, g, v, f⟩ := p
    obtain ⟨-, -, b, -, -⟩ := h
    exact ⟨xb, k, g, v, f, rfl, b.1, fun m hm => by rw [b.2]; exact a2 m hm⟩

end Ellalgo

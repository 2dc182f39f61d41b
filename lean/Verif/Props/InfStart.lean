import Verif.Lib.ClosedOps
import Verif.Lib.CheckedOracles
import Verif.Model.TestOracles

/-! C85: what a run does whose first `gamma` is `f64::NEG_INFINITY` or `f64::INFINITY`. -/

namespace Ellalgo
open Filter

variable {Ω S : Type}

theorem Chk.noInf_bad : Chk.bad.NoInf := fun _ h => by cases h
theorem Chk.noInf_val (x : ℝ) : (Chk.val x).NoInf := fun _ h => by cases h

/-- no operation makes an infinity out of finite and undefined numbers -/
theorem noInf_closed : Closed Chk.NoInf where
  zero := Chk.noInf_val 0
  one := Chk.noInf_val 1
  nat k := Chk.noInf_val k
  add {a b} ha hb := by
    cases a <;> cases b <;>
      first | exact Chk.noInf_bad | exact Chk.noInf_val _ | exact absurd rfl (ha _) | exact absurd rfl (hb _)
  sub {a b} ha hb := by
    cases a <;> cases b <;>
      first | exact Chk.noInf_bad | exact Chk.noInf_val _ | exact absurd rfl (ha _) | exact absurd rfl (hb _)
  mul {a b} ha hb := by
    cases a <;> cases b <;>
      first | exact Chk.noInf_bad | exact Chk.noInf_val _ | exact absurd rfl (ha _) | exact absurd rfl (hb _)
  div {a b} ha hb := by
    cases a <;> cases b <;>
      first | exact Chk.noInf_bad | exact Chk.noInf_val _ | exact absurd rfl (ha _) | exact absurd rfl (hb _) | skip
    rename_i x y
    by_cases hy : y = 0
    · rw [hy, Chk.div_zero_bad]; exact Chk.noInf_bad
    · rw [Chk.div_val _ hy]; exact Chk.noInf_val _
  neg {a} ha := by
    cases a <;> first | exact Chk.noInf_bad | exact Chk.noInf_val _ | exact absurd rfl (ha _)
  sqrt {a} ha := by
    cases a with
    | bad => exact Chk.noInf_bad
    | inf s => exact absurd rfl (ha s)
    | val x =>
      show (Chk.mapIf _ _ _ _).NoInf
      simp only [Chk.mapIf]
      split
      · exact Chk.noInf_val _
      · exact Chk.noInf_bad

theorem Res.map_ok_inv {β γ : Type} {f : β → γ} {x : Res β} {c : γ} (h : .ok c = x.map f) : ∃ b, x = .ok b ∧ c = f b := by
  cases x with
  | ok b => exact ⟨b, rfl, by simpa [Res.map] using h⟩
  | panic => simp [Res.map] at h

theorem Res.map_panic_inv {β γ : Type} {f : β → γ} {x : Res β} (h : .panic = x.map f) : x = .panic := by
  cases x with
  | ok b => simp [Res.map] at h
  | panic => rfl

/-- a run that already has a best point keeps one -/
theorem optimLoop_some {X T α : Type} [Scalar α] (orc : OracleOptim Ω X T α) (sp : Space S X T α) (tol : α) (m : Nat) :
    ∀ n0 x w s g, (optimLoop orc sp tol m n0 (some x) w s g).All fun r => r.1.1.isSome = true := by
  induction m with
  | zero => intro n0 x w s g; rfl
  | succ m ih =>
    intro n0 x w s g
    unfold optimLoop
    refine Res.All.bind (P := fun _ => True) (by cases orc.assess w (sp.xc s) g <;> trivial) ?_
    rintro ⟨⟨c, sh⟩, g, w⟩ -
    refine Res.All.bind (P := fun _ => True)
      (by cases (if sh = true then sp.updateCentral s c else sp.updateBias s c) <;> trivial) ?_
    rintro ⟨st, s⟩ -
    cases sh
    · simp only [Bool.false_eq_true, if_false]
      split
      · rfl
      · exact ih _ _ _ _ _
    · simp only [if_true]
      split
      · rfl
      · exact ih _ _ _ _ _

theorem map_fromTop_some {X : Type} {top : Chk} {r : Res ((Option X × Nat) × Chk × Ω × S)}
    (h : r.All fun r => r.1.1.isSome = true) : r.map (fromTop top) = r := by
  cases r with
  | panic => rfl
  | ok r =>
    have h : r.1.1.isSome = true := h
    simp only [Res.map, fromTop, h, if_true]

theorem blank_loop {l : Filter ℝ} {top : Chk} {orc : OracleOptim Ω (Arr Chk) (SingleCut Chk) Chk} {J : Ω → Prop}
    (ho : orc.BlankAt l top J) (sp : Space S (Arr Chk) (SingleCut Chk) Chk) (K : S → Prop)
    (hx : ∀ s, K s → (sp.xc s).All Chk.NoInf)
    (hc : ∀ s g c, K s → g.All Chk.NoInf → c.beta.NoInf → (sp.updateCentral s (g, c)).All fun r => K r.2)
    (hb : ∀ s g c, K s → g.All Chk.NoInf → c.beta.NoInf → (sp.updateBias s (g, c)).All fun r => K r.2)
    (tol : Chk) (m : Nat) : ∀ n0 w s, J w → K s →
      ∀ᶠ γ in l, optimLoop orc sp tol m n0 none w s top =
        (optimLoop orc sp tol m n0 none w s (.val γ)).map (fromTop top) := by
  induction m with
  | zero => intro n0 w s _ _; exact Eventually.of_forall fun γ => rfl
  | succ m ih =>
    intro n0 w s hw hs
    obtain ⟨h1, h2⟩ := ho w (sp.xc s) hw (hx s hs)
    cases hq : orc.assess w (sp.xc s) top with
    | panic =>
      filter_upwards [h1] with γ hγ
      rw [hq] at hγ
      unfold optimLoop
      rw [hq, Res.map_panic_inv hγ.1]
      rfl
    | ok r =>
      obtain ⟨⟨⟨g, c⟩, sh⟩, gm, w1⟩ := r
      obtain ⟨hw1, hg, hcb⟩ := h2 _ _ _ _ hq
      cases sh with
      | true =>
        filter_upwards [h1] with γ hγ
        obtain ⟨hγ, -⟩ := hγ
        rw [hq] at hγ
        obtain ⟨⟨⟨c', sh'⟩, gm', w1'⟩, ha, hb'⟩ := Res.map_ok_inv hγ
        have hsh : sh' = true := by
          cases sh'
          · simp [answerFromTop] at hb'
          · rfl
        subst hsh
        simp only [answerFromTop, if_true, Prod.mk.injEq, and_true] at hb'
        obtain ⟨rfl, rfl, rfl⟩ := hb'
        have e : optimLoop orc sp tol (m + 1) n0 none w s (.val γ) = optimLoop orc sp tol (m + 1) n0 none w s top := by
          conv_lhs => unfold optimLoop
          conv_rhs => unfold optimLoop
          rw [hq, ha]
        rw [e, map_fromTop_some]
        unfold optimLoop
        rw [hq]
        simp only [Res.ok_bind, if_true]
        refine Res.All.bind (P := fun _ => True) (by cases sp.updateCentral s (g, c) <;> trivial) ?_
        rintro ⟨st, s1⟩ -
        simp only
        split
        · rfl
        · exact optimLoop_some _ _ _ _ _ _ _ _ _
      | false =>
        have hstep : ∀ γ : ℝ, (Res.ok (((g, c), false), gm, w1) = (orc.assess w (sp.xc s) (.val γ)).map (answerFromTop top) ∧
            ∀ c s' γ' w', orc.assess w (sp.xc s) (.val γ) = .ok ((c, s'), γ', w') → s' = false → γ' = .val γ) →
            gm = top ∧ orc.assess w (sp.xc s) (.val γ) = .ok (((g, c), false), .val γ, w1) := by
          rintro γ ⟨hγ, hk⟩
          obtain ⟨⟨⟨c', sh'⟩, gm', w1'⟩, ha, hb'⟩ := Res.map_ok_inv hγ
          cases sh' with
          | true => simp [answerFromTop] at hb'
          | false =>
            have := hk _ _ _ _ ha rfl
            simp only [answerFromTop, Bool.false_eq_true, if_false, Prod.mk.injEq, and_true] at hb'
            obtain ⟨rfl, rfl, rfl⟩ := hb'
            rw [this] at ha
            exact ⟨rfl, ha⟩
        rw [hq] at h1
        cases hu : sp.updateBias s (g, c) with
        | panic =>
          filter_upwards [h1] with γ hγ
          obtain ⟨rfl, ha⟩ := hstep γ hγ
          unfold optimLoop
          rw [hq, ha]
          simp only [Res.ok_bind, Bool.false_eq_true, if_false, hu]
          rfl
        | ok r =>
          obtain ⟨st, s1⟩ := r
          have hk1 : K s1 := by
            have := hb s g c hs hg hcb
            rw [hu] at this
            exact this
          filter_upwards [h1, ih (n0 + 1) w1 s1 hw1 hk1] with γ hγ hi
          obtain ⟨rfl, ha⟩ := hstep γ hγ
          unfold optimLoop
          rw [hq, ha]
          simp only [Res.ok_bind, Bool.false_eq_true, if_false, hu]
          split
          · rfl
          · exact hi

/-- **C85** (any oracle)  Start `cutting_plane_optim` with an infinite `gamma` (`top`), on an ellipsoid without infinite entries, with
an oracle that treats `top` like every finite `gamma` far enough in the direction `l`.  Then the run returns exactly what it
returns for every finite first `gamma` far enough in that direction; only if no point is found the returned `gamma` is still
infinite.  (In IEEE arithmetic without rounding; any tolerance and iteration limit.) -/
theorem C85_infinite_start {l : Filter ℝ} {top : Chk} {orc : OracleOptim Ω (Arr Chk) (SingleCut Chk) Chk} {J : Ω → Prop}
    (ho : orc.BlankAt l top J) (w : Ω) (hw : J w) (e : Ell Chk) (he : e.All Chk.NoInf) (opts : Options Chk) :
    ∀ᶠ γ in l, cuttingPlaneOptim orc Ell.space w e top opts =
      (cuttingPlaneOptim orc Ell.space w e (.val γ) opts).map (fromTop top) :=
  blank_loop ho Ell.space (Ell.All Chk.NoInf) (fun _ h => h.2.1)
    (fun _ _ c h hg hc => Ell.update_all noInf_closed h .central (c := c) hg hc)
    (fun _ _ c h hg hc => Ell.update_all noInf_closed h .bias (c := c) hg hc) _ _ _ _ _ hw he

/-- **C85** (any oracle, the stable ellipsoid) -/
theorem C85_infinite_start_stable {l : Filter ℝ} {top : Chk} {orc : OracleOptim Ω (Arr Chk) (SingleCut Chk) Chk} {J : Ω → Prop}
    (ho : orc.BlankAt l top J) (w : Ω) (hw : J w) (e : EllStable Chk) (he : e.All Chk.NoInf) (opts : Options Chk) :
    ∀ᶠ γ in l, cuttingPlaneOptim orc EllStable.space w e top opts =
      (cuttingPlaneOptim orc EllStable.space w e (.val γ) opts).map (fromTop top) :=
  blank_loop ho EllStable.space (EllStable.All Chk.NoInf) (fun _ h => h.2.1)
    (fun _ _ c h hg hc => EllStable.update_all noInf_closed h .central (c := c) hg hc)
    (fun _ _ c h hg hc => EllStable.update_all noInf_closed h .bias (c := c) hg hc) _ _ _ _ _ hw he

end Ellalgo

import Verif.Spec.FeasFamily
import Verif.Props.Solve
import Verif.Props.ExampleProps

/-! C65: `bsearch` over `BSearchAdaptor` minimises. -/

namespace Ellalgo
open Matrix
open scoped ComplexOrder

variable {Ω T : Type} [Cut T] {n : Nat} {orc : OracleFeas Ω (Arr ℝ) T ℝ} {I : Ω → ℝ → Prop}
  {F : Set (Fin n → ℝ)} {f : (Fin n → ℝ) → ℝ} {G : ℝ}

/-- with an honest oracle the feasibility loop never panics, and what it returns was accepted -/
theorem feasLoop_total {J : Ω → Prop} {K : Set (Fin n → ℝ)} (hn : 0 < n) (h : HonestFeas n orc J K G) (tol : ℝ)
    (m : Nat) : ∀ (k0 : Nat) (w : Ω) (e : Ell ℝ), J w → e.Shaped n →
    ∃ r k w' e', feasLoop orc Ell.space tol m k0 w e = .ok ((r, k), w', e') ∧ J w' ∧
      ∀ x, r = some x → x.IsVecShape n ∧ ∃ w1, J w1 ∧ orc.assess w1 x = .ok (none, w') := by
  induction m with
  | zero =>
    intro k0 w e hw he
    exact ⟨none, k0, w, e, rfl, hw, by simp⟩
  | succ m ih =>
    intro k0 w e hw he
    obtain ⟨r, w', h1, h2, h3⟩ := h w e.xc hw he.2
    have h1' : orc.assess w (Ell.space (T := T).xc e) = .ok (r, w') := h1
    unfold feasLoop
    rw [h1', Res.ok_bind]
    cases r with
    | none => exact ⟨some e.xc, k0, w', e, rfl, h2, fun x hx => by
        simp only [Option.some.injEq] at hx
        subst hx
        exact ⟨he.2, w, hw, h1⟩⟩
    | some c =>
      obtain ⟨g, c⟩ := c
      obtain ⟨hg, -⟩ := h3 g c rfl
      obtain ⟨st, e1, u1, u2, -⟩ := Ell.update_shape hn .bias e (g, c) he hg
      have u1' : Ell.space.updateBias e (g, c) = .ok (st, e1) := u1
      simp only [u1', Res.ok_bind]
      split
      · exact ⟨none, k0, w', e1, rfl, h2, by simp⟩
      · exact ih _ w' e1 h2 u2

/-- state of the adaptor between two probes -/
structure AdInv (n : Nat) (I : Ω → ℝ → Prop) (F : Set (Fin n → ℝ)) (f : (Fin n → ℝ) → ℝ) (e : Ell ℝ) (o : Options ℝ)
    (u : ℝ) (a : BSearchAdaptor Ω (Ell ℝ) ℝ) (U : ℝ) : Prop where
  opts : a.options = o
  om : ∃ t, I a.omega t
  sp : ∃ y : Arr ℝ, y.IsVecShape n ∧ a.space = { e with xc := y } ∧ (y.toVec n = e.c n ∨ y.toVec n ∈ F)
  upper : U = u ∨ (a.space.c n ∈ F ∧ f (a.space.c n) ≤ U)

theorem adaptor_step (hfam : FeasFamily n orc I F f G) {e : Ell ℝ} (he : e.Valid n) {o : Options ℝ} {u : ℝ}
    {p : Fin n → ℝ} {r t1 : ℝ} (hr : 0 < r) (hbF : ∀ z ∈ ball p r, z ∈ F ∧ f z ≤ t1)
    (hcov : ∀ c, c = e.c n ∨ c ∈ F → ball p r ⊆ ellipsoid (e.M n) e.kappa c)
    (htol : o.tolerance ≤ r ^ 2 * G ^ 2)
    (hit : ((n : ℝ) + 1) * Real.log ((e.kappa • e.M n).det / (r ^ 2) ^ n) < o.maxIters)
    {a : BSearchAdaptor Ω (Ell ℝ) ℝ} {U : ℝ} (ha : AdInv n I F f e o u a U) (γ : ℝ) :
    ∃ b a', (BSearchAdaptor.oracle orc Ell.space).assess a γ = .ok (b, a') ∧
      (b = false → γ < t1 ∧ AdInv n I F f e o u a' U) ∧ (b = true → AdInv n I F f e o u a' γ) := by
  obtain ⟨t, ht⟩ := ha.om
  obtain ⟨w1, hw1, hI1⟩ := hfam.update a.omega t γ ht
  obtain ⟨y, hy, hsp, hyF⟩ := ha.sp
  have hval : a.space.Valid n := by
    rw [hsp]
    exact ⟨⟨he.shaped.1, hy⟩, he.dim, he.posDef, he.kappa, he.helper⟩
  have hreg : a.space.region n = ellipsoid (e.M n) e.kappa (y.toVec n) := by rw [hsp]; rfl
  obtain ⟨res, k, w', e', l1, l2, l3⟩ := feasLoop_total he.pos (hfam.honest γ) a.options.tolerance a.options.maxIters 0
    w1 a.space hI1 hval.shaped
  have hrun : cuttingPlaneFeas orc Ell.space w1 a.space a.options = .ok ((res, k), w', e') := l1
  have hsome : ∀ x, res = some x → (BSearchAdaptor.oracle orc Ell.space).assess a γ =
      .ok (true, { a with omega := w', space := { a.space with xc := x } }) := by
    rintro x rfl
    show BSearchAdaptor.assessBs orc Ell.space a γ = _
    unfold BSearchAdaptor.assessBs
    simp only [hw1, Res.ok_bind, hrun]
    rfl
  have hnone : res = none → (BSearchAdaptor.oracle orc Ell.space).assess a γ = .ok (false, { a with omega := w' }) := by
    rintro rfl
    show BSearchAdaptor.assessBs orc Ell.space a γ = _
    unfold BSearchAdaptor.assessBs
    simp only [hw1, Res.ok_bind, hrun]
  cases hres : res with
  | some x =>
    obtain ⟨hx, w2, hw2, hacc⟩ := l3 x hres
    obtain ⟨hxF, hxf⟩ := hfam.accepts w2 x γ w' hw2 hx hacc
    refine ⟨true, _, hsome x hres, by simp, fun _ => ⟨ha.opts, ⟨γ, l2⟩, ⟨x, hx, ?_, Or.inr hxF⟩, Or.inr ⟨hxF, hxf⟩⟩⟩
    simp only [hsp]
  | none =>
    refine ⟨false, _, hnone hres, fun _ => ⟨?_, ⟨ha.opts, ⟨γ, l2⟩, ⟨y, hy, hsp, hyF⟩, ha.upper⟩⟩, by simp⟩
    by_contra hle
    push Not at hle
    have hk : (a.space.kappa • a.space.M n) = (e.kappa • e.M n) := by rw [hsp]; rfl
    obtain ⟨x, k', w3, w4, e4, hc, -⟩ := C22_feas_converges orc (fun w => I w γ) {z | z ∈ F ∧ f z ≤ γ} G r p w1 a.space
      a.options (hfam.honest γ) hI1 hval hr (fun z hz => ⟨(hbF z hz).1, (hbF z hz).2.trans hle⟩)
      (by rw [hreg]; exact hcov _ hyF) (by rw [ha.opts]; exact htol) (by rw [hk, ha.opts]; exact hit)
    rw [hrun, hres] at hc
    simp at hc

theorem bsearchLoop_adaptor (hfam : FeasFamily n orc I F f G) {e : Ell ℝ} (he : e.Valid n) {o : Options ℝ} {u : ℝ}
    {p : Fin n → ℝ} {r t1 : ℝ} (hr : 0 < r) (hbF : ∀ z ∈ ball p r, z ∈ F ∧ f z ≤ t1)
    (hcov : ∀ c, c = e.c n ∨ c ∈ F → ball p r ⊆ ellipsoid (e.M n) e.kappa c)
    (htol : o.tolerance ≤ r ^ 2 * G ^ 2)
    (hit : ((n : ℝ) + 1) * Real.log ((e.kappa • e.M n).det / (r ^ 2) ^ n) < o.maxIters) (tol : ℝ) (m : Nat) :
    ∀ (k0 : Nat) (a : BSearchAdaptor Ω (Ell ℝ) ℝ) (L U : ℝ), L ≤ U → L < t1 → AdInv n I F f e o u a U →
    ∃ L' U' k a', bsearchLoop (BSearchAdaptor.oracle orc Ell.space) tol m k0 a L U = .ok ((L', U'), k, a') ∧
      L' < t1 ∧ AdInv n I F f e o u a' U' ∧ U' - L' ≤ max ((U - L) / 2 ^ m) (2 * tol) := by
  induction m with
  | zero =>
    intro k0 a L U hLU hL ha
    exact ⟨L, U, k0, a, rfl, hL, ha, by simp⟩
  | succ m ih =>
    intro k0 a L U hLU hL ha
    have n2 : (nat 2 : ℝ) = 2 := by simp [nat]
    unfold bsearchLoop
    simp only [n2, Scalar.real_lt, decide_eq_true_eq]
    split
    · rename_i hlt
      exact ⟨L, U, k0, a, rfl, hL, ha, le_max_of_le_right (by linarith)⟩
    · obtain ⟨b, a', h1, h2, h3⟩ := adaptor_step hfam he hr hbF hcov htol hit ha (L + (U - L) / 2)
      rw [h1, Res.ok_bind]
      cases b with
      | true =>
        obtain ⟨L', U', k, a2, c1, c2, c3, c4⟩ := ih (k0 + 1) a' L (L + (U - L) / 2) (by linarith) hL (h3 rfl)
        refine ⟨L', U', k, a2, c1, c2, c3, c4.trans_eq ?_⟩
        rw [pow_succ]
        congr 1
        field_simp
        ring
      | false =>
        obtain ⟨hγ, ha'⟩ := h2 rfl
        obtain ⟨L', U', k, a2, c1, c2, c3, c4⟩ := ih (k0 + 1) a' (L + (U - L) / 2) U (by linarith) hγ ha'
        refine ⟨L', U', k, a2, c1, c2, c3, c4.trans_eq ?_⟩
        rw [pow_succ]
        congr 1
        field_simp
        ring

/-- **C65** Let the oracle answer truthfully for the problems "find `z ∈ F` with `f z ≤ t`", `F` convex with nonempty
interior, and let the ellipsoid given to `BSearchAdaptor` cover `F` from its own centre and from every point of `F`
(the adaptor recentres it at accepted points).  If the interval brackets the minimum, then for every `ε > 0`, enough
iterations of the inner and outer loop and small enough tolerances, `bsearch` returns `true`, and the centre the adaptor
holds afterwards is a point of `F` whose value is within `ε` of the minimum. -/
theorem C65_bsearch_minimizes (hfam : FeasFamily n orc I F f G) (hG : 0 < G) (w : Ω) {t0 : ℝ} (hw : I w t0) (e : Ell ℝ)
    (he : e.Valid n) (hF : Convex ℝ F) (hint : (interior F).Nonempty) {xs : Fin n → ℝ} (hxs : xs ∈ F)
    (hmin : ∀ x ∈ F, f xs ≤ f x) (hcont : ContinuousAt f xs)
    (hcov : ∀ c, c = e.c n ∨ c ∈ F → F ⊆ ellipsoid (e.M n) e.kappa c)
    {l u : ℝ} (hl : l ≤ f xs) (hu : f xs < u) {ε : ℝ} (hε : 0 < ε) :
    ∃ (N N' : Nat) (tol0 : ℝ), 0 < tol0 ∧ ∀ inner outer : Options ℝ,
      N ≤ inner.maxIters → inner.tolerance ≤ tol0 → N' ≤ outer.maxIters → outer.tolerance ≤ tol0 →
      ∃ k a', bsearch (BSearchAdaptor.oracle orc Ell.space) ⟨w, e, inner⟩ (l, u) outer = .ok ((true, k), a', (l, u)) ∧
        a'.space.c n ∈ F ∧ f xs ≤ f (a'.space.c n) ∧ f (a'.space.c n) ≤ f xs + ε := by
  set d := min ε (u - f xs) with hd
  have hd0 : 0 < d := lt_min hε (by linarith)
  have hU : {x | f x ≤ f xs + d / 2} ∈ nhds xs := by
    have := hcont.eventually (gt_mem_nhds (show f xs < f xs + d / 2 by linarith))
    filter_upwards [this] with x hx using hx.le
  obtain ⟨p, r, hr, hb1, hb2⟩ := exists_ball_near hF hint hxs hU
  obtain ⟨N', hN'⟩ : ∃ N' : Nat, (u - l) / 2 ^ N' < d / 2 := by
    obtain ⟨N', h⟩ := exists_pow_lt_of_lt_one (show 0 < d / 2 / (u - l + 1) by
      apply div_pos <;> linarith) (show (1 / 2 : ℝ) < 1 by norm_num)
    refine ⟨N', ?_⟩
    rw [lt_div_iff₀ (by linarith)] at h
    have hp : (0 : ℝ) < 2 ^ N' := by positivity
    rw [div_lt_iff₀ hp]
    have e1 : (1 / 2 : ℝ) ^ N' * 2 ^ N' = 1 := by rw [← mul_pow]; norm_num
    nlinarith
  refine ⟨Nat.floor (((n : ℝ) + 1) * Real.log ((e.kappa • e.M n).det / (r ^ 2) ^ n)) + 1, N',
    min (r ^ 2 * G ^ 2) (d / 8), lt_min (by positivity) (by linarith), ?_⟩
  intro inner outer h1 h2 h3 h4
  have hit : ((n : ℝ) + 1) * Real.log ((e.kappa • e.M n).det / (r ^ 2) ^ n) < inner.maxIters :=
    lt_of_lt_of_le (Nat.lt_floor_add_one _) (by exact_mod_cast h1)
  obtain ⟨L', U', k, a', c1, c2, c3, c4⟩ := bsearchLoop_adaptor (u := u) hfam he hr
    (fun z hz => ⟨hb1 hz, hb2 hz⟩) (fun c hc z hz => hcov c hc (hb1 hz)) (h2.trans (min_le_left _ _)) hit
    outer.tolerance outer.maxIters 0 ⟨w, e, inner⟩ l u (by linarith) (by linarith)
    ⟨rfl, ⟨t0, hw⟩, ⟨e.xc, he.shaped.2, rfl, Or.inl rfl⟩, Or.inl rfl⟩
  have hwid : U' - L' < d / 2 := by
    refine lt_of_le_of_lt c4 (max_lt ?_ ?_)
    · refine lt_of_le_of_lt ?_ hN'
      exact div_le_div_of_nonneg_left (by linarith) (by positivity) (pow_le_pow_right₀ (by norm_num) h3)
    · have := h4.trans (min_le_right _ _)
      linarith
  have hdu : d ≤ u - f xs := min_le_right _ _
  have hUu : U' < u := by linarith
  obtain hU' | ⟨hcF, hcU⟩ := c3.upper
  · exact absurd hU' hUu.ne
  refine ⟨k, a', ?_, hcF, hmin _ hcF, ?_⟩
  · have hle : Scalar.le l u = true := by simp; linarith
    have hb : Scalar.beq U' u = false := by simp [hUu.ne]
    unfold bsearch
    simp only [hle, Res.assert_true, Res.ok_bind, c1, hb, Bool.not_false]
  · have : d ≤ ε := min_le_left _ _
    linarith

/-! ### example3 -/

/-- `MyOracle3` answers the family "find a point of the triangle with `2x - 3y ≤ t`" -/
theorem ex3_family : FeasFamily 2 (Ex3.oracle (α := ℝ)) (fun o t => -1 ≤ o.idx ∧ o.idx < 4 ∧ o.target = t) ex4F ex4Obj 1 where
  update := by
    rintro o t t' ⟨h1, h2, -⟩
    exact ⟨{ o with target := t' }, rfl, h1, h2, rfl⟩
  honest := by
    rintro t o x ⟨h1, h2, rfl⟩ hx
    obtain ⟨r, o', a1, a2, -, a4⟩ := C58_example3 o h1 h2 x hx
    refine ⟨r, o', a1, a2, ?_⟩
    intro g c hgc
    obtain ⟨b1, b2, b3, b4⟩ := a4 g c hgc
    refine ⟨b1, ?_, by linarith, b3.le, fun y hy => ⟨?_, by simp⟩⟩
    · intro h0
      rw [h0] at b2
      simp [normSq] at b2
      linarith
    · rw [UpdateKind.lo_bias]; exact b4 y hy
  accepts := by
    rintro o x t o' ⟨h1, h2, rfl⟩ hx ha
    obtain ⟨r, o'', a1, -, a3, -⟩ := C58_example3 o h1 h2 x hx
    rw [a1] at ha
    simp only [Res.ok.injEq, Prod.mk.injEq] at ha
    exact a3.1 ha.1

/-- **C65** (example3) The minimum of `2x - 3y` over the triangle is -8 (at `(-1, 2)`); `bsearch` over the adaptor of
`MyOracle3`, from any oracle position and any ellipsoid that covers the triangle from its centre and from every point
of the triangle, finds it to any accuracy. -/
theorem C65_example3_solved (o : Ex3 ℝ) (h1 : -1 ≤ o.idx) (h2 : o.idx < 4) (e : Ell ℝ) (he : e.Valid 2)
    (hcov : ∀ c, c = e.c 2 ∨ c ∈ ex4F → ex4F ⊆ ellipsoid (e.M 2) e.kappa c) {l u : ℝ} (hl : l ≤ -8) (hu : -8 < u)
    {ε : ℝ} (hε : 0 < ε) :
    ∃ (N N' : Nat) (tol0 : ℝ), 0 < tol0 ∧ ∀ inner outer : Options ℝ,
      N ≤ inner.maxIters → inner.tolerance ≤ tol0 → N' ≤ outer.maxIters → outer.tolerance ≤ tol0 →
      ∃ k a', bsearch (BSearchAdaptor.oracle Ex3.oracle Ell.space) ⟨o, e, inner⟩ (l, u) outer =
          .ok ((true, k), a', (l, u)) ∧
        a'.space.c 2 ∈ ex4F ∧ -8 ≤ ex4Obj (a'.space.c 2) ∧ ex4Obj (a'.space.c 2) ≤ -8 + ε := by
  have hv : ex4Obj ![-1, 2] = -8 := by norm_num [ex4Obj]
  have := C65_bsearch_minimizes ex3_family one_pos o (t0 := o.target) ⟨h1, h2, rfl⟩ e he ex4F_convex ex4F_interior
    (xs := ![-1, 2]) (by refine ⟨?_, ?_, ?_⟩ <;> norm_num)
    (fun z hz => by obtain ⟨a, b, c⟩ := hz; rw [hv, ex4Obj]; linarith)
    (by unfold ex4Obj; fun_prop) hcov (l := l) (u := u) (by rw [hv]; exact hl) (by rw [hv]; exact hu) hε
  rw [hv] at this
  exact this

/-- Non-vacuity: the setting of the repository's own test (`Ell::new_with_scalar(100, (0,0))`, interval `(-100, 100)`,
`MyOracle3::default()`). -/
example : ∃ e, Ell.newWithScalar (100 : ℝ) (Arr.ofList [0, 0]) = .ok e ∧
    ∃ (N N' : Nat) (tol0 : ℝ), 0 < tol0 ∧ ∀ inner outer : Options ℝ,
      N ≤ inner.maxIters → inner.tolerance ≤ tol0 → N' ≤ outer.maxIters → outer.tolerance ≤ tol0 →
      ∃ k a', bsearch (BSearchAdaptor.oracle Ex3.oracle Ell.space) ⟨Ex3.default, e, inner⟩ (-100, 100) outer =
          .ok ((true, k), a', (-100, 100)) ∧
        a'.space.c 2 ∈ ex4F ∧ -8 ≤ ex4Obj (a'.space.c 2) ∧ ex4Obj (a'.space.c 2) ≤ -8 + 1 / 1000 := by
  obtain ⟨y, h1, h2⟩ := eye_spec (α := ℝ) 2
  have hy : y.toMat 2 2 = 1 := by
    rw [h2.toMat]
    ext i j
    simp only [of_apply, one_apply, Fin.ext_iff]
  have hl : (Arr.ofList [(0 : ℝ), 0]).len = 2 := rfl
  refine ⟨Ell.newWithMatrix 100 y (Arr.ofList [0, 0]), by simp [Ell.newWithScalar, hl, h1],
    C65_example3_solved Ex3.default (by norm_num [Ex3.default]) (by norm_num [Ex3.default]) _
    (C13_valid_with_matrix 100 y _ le_rfl h2.shape (pair_shape 0 0) (by rw [hy]; exact PosDef.one) (by norm_num)) ?_
    (by norm_num) (by norm_num) (by norm_num)⟩
  have hM : (Ell.newWithMatrix 100 y (Arr.ofList [0, 0])).M 2 = 1 := hy
  have hk : (Ell.newWithMatrix 100 y (Arr.ofList [0, 0])).kappa = 100 := rfl
  rintro c hc z ⟨z1, z2, z3⟩
  have hcb : -1 ≤ c 0 ∧ c 0 ≤ 3 ∧ -2 ≤ c 1 ∧ c 1 ≤ 2 := by
    rcases hc with rfl | ⟨c1, c2, c3⟩
    · have : (Ell.newWithMatrix 100 y (Arr.ofList [0, 0])).c 2 = ![0, 0] := pair_toVec 0 0
      rw [this]
      norm_num
    · refine ⟨c1, by linarith, c2, by linarith⟩
  obtain ⟨c1, c2, c3, c4⟩ := hcb
  rw [hM, hk, ellipsoid, Set.mem_ofPred_eq, inv_one, one_mulVec, dotProduct, Fin.sum_univ_two]
  simp only [Pi.sub_apply]
  have a1 : z 0 ≤ 3 := by linarith
  have a2 : z 1 ≤ 2 := by linarith
  have b1 : (z 0 - c 0) * (z 0 - c 0) ≤ 16 := by nlinarith
  have b2 : (z 1 - c 1) * (z 1 - c 1) ≤ 16 := by nlinarith
  linarith

end Ellalgo

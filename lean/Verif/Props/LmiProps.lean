import Verif.Lib.LmiLemmas
import Verif.Lib.LmiOld
import Verif.Props.Converge
import Verif.Spec.Runs

/-! # Properties C33-C36: the LMI oracles -/

namespace Ellalgo
open Finset Matrix

/-- common part of the LMI oracles: factor, and on failure build the witness -/
theorem lmi_core {n : Nat} {m : LDLTMgr ℝ} {getElem : Nat → Nat → Res ℝ} {M : Matrix (Fin n) (Fin n) ℝ}
    (hm : m.Ready n) (hs : M.IsSymm) (hA : ∀ i j : Fin n, getElem i j = .ok (M i j)) :
    ∃ b m', m.factor getElem = .ok (b, m') ∧ m'.Ready n ∧ (b = true ↔ M.PosDef) ∧
      (b = false → ∃ ep m'', m'.witness = .ok (ep, m'') ∧ m''.Ready n ∧ 0 ≤ ep ∧ m''.witVec n ≠ 0 ∧
        m''.witVec n ⬝ᵥ (M *ᵥ m''.witVec n) = - ep ∧
        ∀ F : Arr ℝ, F.IsMatShape n n →
          m''.symQuad F = .ok (m''.witVec n ⬝ᵥ (F.toMat n n *ᵥ m''.witVec n))) ∧
      (b = false → ∀ ep m'', m'.witness = .ok (ep, m'') → 1 ≤ m''.witVec n ⬝ᵥ m''.witVec n) := by
  let A : Nat → Nat → ℝ := fun i j => if h : i < n ∧ j < n then M ⟨i, h.1⟩ ⟨j, h.2⟩ else 0
  have hA' : ∀ i j, j ≤ i → i < n → getElem i j = .ok (A i j) := by
    intro i j hj hi
    have := hA ⟨i, hi⟩ ⟨j, by omega⟩
    simp only [A]; rw [dif_pos ⟨hi, by omega⟩]; exact this
  have hM : lowerSym n A = M := by
    rw [lowerSym_of_symm]
    · ext i j
      simp [A]
    · intro i j hi hj
      simp only [A]; rw [dif_pos ⟨hi, hj⟩, dif_pos ⟨hj, hi⟩]
      exact congrFun (congrFun hs ⟨j, hj⟩) ⟨i, hi⟩
  obtain ⟨b, m', h1, h2, h3⟩ := C29_factor_iff_posDef hm hA'
  rw [hM] at h3
  refine ⟨b, m', h1, h2, h3, ?_, ?_⟩
  · rintro rfl
    obtain ⟨ep, m'', k1, k2, k3, _, _, _, _, k4, k5, k6⟩ := C31_witness hm hA' h1
    rw [hM] at k5
    exact ⟨ep, m'', k1, k2, k3, k4, k5, k6⟩
  · rintro rfl ep0 m0 h0
    obtain ⟨ep, m'', k1, k2, k3, -, p1, p2, p3, k4, k5, k6⟩ := C31_witness hm hA' h1
    rw [k1] at h0
    simp only [Res.ok.injEq, Prod.mk.injEq] at h0
    obtain ⟨rfl, rfl⟩ := h0
    have hlt : m''.pos.2 - 1 < n := by omega
    have hone : m''.witVec n ⟨m''.pos.2 - 1, hlt⟩ = 1 := by
      simp only [LDLTMgr.witVec]
      rw [if_pos ⟨by omega, by omega⟩]
      exact p3
    have := Finset.single_le_sum (f := fun i => m''.witVec n i * m''.witVec n i) (fun i _ => mul_self_nonneg _)
      (Finset.mem_univ ⟨m''.pos.2 - 1, hlt⟩)
    rw [hone] at this
    simpa [dotProduct] using this

/-! ## C33 -/

/-- Everything C33 and C36 need, with a strict inequality for strictly feasible points. -/
theorem lmi_assess {d n : Nat} {fs : List (Arr ℝ)} {b : Arr ℝ} {o : LMIOracle ℝ} {x : Arr ℝ}
    (hF : SymMats d n fs) (hb : b.IsMatShape n n) (hbs : (b.toMat n n).IsSymm) (ho : o.For n fs b)
    (hx : x.IsVecShape d) :
    ∃ r o', o.assess x = .ok (r, o') ∧ o'.For n fs b ∧
      (r = none ↔ (lmiMat n fs b (x.toVec d)).PosDef) ∧
      ∀ g c, r = some (g, c) → g.IsVecShape d ∧ 0 ≤ c.beta ∧
        (∀ y : Fin d → ℝ, (lmiMat n fs b y).PosSemidef → g.toVec d ⬝ᵥ (y - x.toVec d) + c.beta ≤ 0) ∧
        (∀ y : Fin d → ℝ, (lmiMat n fs b y).PosDef → g.toVec d ⬝ᵥ (y - x.toVec d) + c.beta < 0) ∧
        (∀ (y : Fin d → ℝ) (lam : ℝ), 0 ≤ lam → (lmiMat n fs b y - lam • (1 : Matrix (Fin n) (Fin n) ℝ)).PosSemidef →
          g.toVec d ⬝ᵥ (y - x.toVec d) + c.beta ≤ -lam) := by
  obtain ⟨bb, m', h1, h2, h3, h4, h4n⟩ := lmi_core ho.2.2 (lmiMat_isSymm hF hbs (x.toVec d))
    (fun i j => LMIOracle.elem_spec hF hb ho hx i j)
  unfold LMIOracle.assess
  rw [h1]
  simp only [Res.ok_bind]
  cases bb with
  | true =>
    refine ⟨none, { o with mgr := m' }, rfl, ⟨ho.1, ho.2.1, h2⟩, ⟨fun _ => h3.1 rfl, fun _ => rfl⟩, ?_⟩
    intro g c h; simp at h
  | false =>
    obtain ⟨ep, m'', k1, k2, k3, k4, k5, k6⟩ := h4 rfl
    obtain ⟨g, hg1, hg2, hg3⟩ := lmiGrad_spec hF k6
    have hlen : x.len = d := hx.isVec.len'
    refine ⟨some (g, ⟨ep⟩), { o with mgr := m'' }, ?_, ⟨ho.1, ho.2.1, k2⟩, ?_, ?_⟩
    · simp only [Bool.false_eq_true, if_false, k1, Res.ok_bind, hlen, ho.1, hg1]
    · constructor
      · intro h; simp at h
      · intro h; have := h3.2 h; simp at this
    · intro g' c' h
      simp only [Option.some.injEq, Prod.mk.injEq] at h
      obtain ⟨rfl, rfl⟩ := h
      have key : ∀ y : Fin d → ℝ, g.toVec d ⬝ᵥ (y - x.toVec d) + ep
          = - (m''.witVec n ⬝ᵥ (lmiMat n fs b y *ᵥ m''.witVec n)) := by
        intro y
        rw [grad_dot hg3]
        have e1 : ∀ z : Fin d → ℝ, m''.witVec n ⬝ᵥ (lmiMat n fs b z *ᵥ m''.witVec n)
            = m''.witVec n ⬝ᵥ (b.toMat n n *ᵥ m''.witVec n) -
              m''.witVec n ⬝ᵥ (linMat n fs z *ᵥ m''.witVec n) := by
          intro z; rw [lmiMat, Matrix.sub_mulVec, dotProduct_sub]
        rw [e1] at k5
        rw [e1]; linarith
      refine ⟨hg2, k3, fun y hy => ?_, fun y hy => ?_, fun y lam hl hy => ?_⟩
      · have := hy.dotProduct_mulVec_nonneg (m''.witVec n)
        simp only [star_trivial] at this
        rw [key]; linarith
      · have := (posDef_iff_real.1 hy).2 _ k4
        rw [key]; linarith
      · have := hy.dotProduct_mulVec_nonneg (m''.witVec n)
        simp only [star_trivial, Matrix.sub_mulVec, dotProduct_sub, Matrix.smul_mulVec, one_mulVec, dotProduct_smul,
          smul_eq_mul] at this
        have h1 := mul_le_mul_of_nonneg_left (h4n rfl ep m'' k1) hl
        rw [key]; linarith

/-- **C33** `LMIOracle::assess_feas(x)` never panics; it accepts `x` iff `B - Σ x_k F_k` is positive definite;
otherwise it returns `(g, ep)` with `ep ≥ 0` and `gᵀ(y - x) + ep ≤ 0` for every `y` for which the matrix is
positive semidefinite.  The oracle may have been used before in any way (`For`). -/
theorem C33_lmi_exact {d n : Nat} {fs : List (Arr ℝ)} {b : Arr ℝ} {o : LMIOracle ℝ} {x : Arr ℝ}
    (hF : SymMats d n fs) (hb : b.IsMatShape n n) (hbs : (b.toMat n n).IsSymm) (ho : o.For n fs b)
    (hx : x.IsVecShape d) :
    ∃ r o', o.assess x = .ok (r, o') ∧ o'.For n fs b ∧
      (r = none ↔ (lmiMat n fs b (x.toVec d)).PosDef) ∧
      ∀ g c, r = some (g, c) → g.IsVecShape d ∧ 0 ≤ c.beta ∧
        ∀ y : Fin d → ℝ, (lmiMat n fs b y).PosSemidef → g.toVec d ⬝ᵥ (y - x.toVec d) + c.beta ≤ 0 := by
  obtain ⟨r, o', h1, h2, h3, h4⟩ := lmi_assess hF hb hbs ho hx
  exact ⟨r, o', h1, h2, h3, fun g c h => ⟨(h4 g c h).1, (h4 g c h).2.1, (h4 g c h).2.2.1⟩⟩

/-- a fresh oracle is in a valid state -/
theorem LMIOracle.for_new {n : Nat} {fs : List (Arr ℝ)} {b : Arr ℝ} (hb : b.IsMatShape n n) :
    (LMIOracle.new fs b).For n fs b := by
  refine ⟨rfl, rfl, ?_⟩
  show (LDLTMgr.new b.rows).Ready n
  rw [hb.1]; exact LDLTMgr.ready_new n

/-- **C33** the cut is never empty-handed: if the LMI is strictly feasible at all, the gradient is nonzero -/
theorem C33_gradient_ne_zero {d n : Nat} {fs : List (Arr ℝ)} {b : Arr ℝ} {o o' : LMIOracle ℝ} {x : Arr ℝ}
    (hF : SymMats d n fs) (hb : b.IsMatShape n n) (hbs : (b.toMat n n).IsSymm) (ho : o.For n fs b)
    (hx : x.IsVecShape d) {g : Arr ℝ} {c : SingleCut ℝ} (h : o.assess x = .ok (some (g, c), o'))
    {y : Fin d → ℝ} (hy : (lmiMat n fs b y).PosDef) : g.toVec d ≠ 0 := by
  obtain ⟨r, o1, h1, h2, h3, h4⟩ := lmi_assess hF hb hbs ho hx
  rw [h] at h1
  simp only [Res.ok.injEq, Prod.mk.injEq] at h1
  obtain ⟨_, h5, _, h7, _⟩ := h4 g c h1.1.symm
  intro h0
  have := h7 y hy
  rw [h0, zero_dotProduct] at this
  linarith

/-! ## C35 -/

/-- **C35** `LMI0Oracle::assess_feas(x)` accepts iff `Σ x_k F_k` is positive definite; otherwise `ep ≥ 0` and
`gᵀ(y - x) + ep ≤ 0` for every `y` with `Σ y_k F_k` positive semidefinite. -/
theorem C35_lmi0_exact {d n : Nat} {fs : List (Arr ℝ)} {o : LMI0Oracle ℝ} {x : Arr ℝ}
    (hF : SymMats d n fs) (ho : o.For n fs) (hx : x.IsVecShape d) :
    ∃ r o', o.assess x = .ok (r, o') ∧ o'.For n fs ∧
      (r = none ↔ (linMat n fs (x.toVec d)).PosDef) ∧
      ∀ g ep, r = some (g, ep) → g.IsVecShape d ∧ 0 ≤ ep ∧
        ∀ y : Fin d → ℝ, (linMat n fs y).PosSemidef → g.toVec d ⬝ᵥ (y - x.toVec d) + ep ≤ 0 := by
  obtain ⟨bb, m', h1, h2, h3, h4, -⟩ := lmi_core ho.2 (linMat_isSymm hF (x.toVec d))
    (fun i j => LMI0Oracle.elem_spec hF ho hx i j)
  unfold LMI0Oracle.assess
  rw [h1]
  simp only [Res.ok_bind]
  cases bb with
  | true =>
    refine ⟨none, { o with mgr := m' }, rfl, ⟨ho.1, h2⟩, ⟨fun _ => h3.1 rfl, fun _ => rfl⟩, ?_⟩
    intro g c h; simp at h
  | false =>
    obtain ⟨ep, m'', k1, k2, k3, k4, k5, k6⟩ := h4 rfl
    obtain ⟨g, hg1, hg2, hg3⟩ := lmi0Grad_spec hF k6
    have hlen : x.len = d := hx.isVec.len'
    refine ⟨some (g, ep), { o with mgr := m'' }, ?_, ⟨ho.1, k2⟩, ?_, ?_⟩
    · simp only [Bool.false_eq_true, if_false, k1, Res.ok_bind, hlen, ho.1, hg1]
    · constructor
      · intro h; simp at h
      · intro h; have := h3.2 h; simp at this
    · intro g' c' h
      simp only [Option.some.injEq, Prod.mk.injEq] at h
      obtain ⟨rfl, rfl⟩ := h
      refine ⟨hg2, k3, fun y hy => ?_⟩
      have hd := grad_dot (g := fun k => - g.toVec d k) (x := x.toVec d) (y := y) (v := m''.witVec n) (fs := fs)
        (fun k => by rw [hg3 k, neg_neg])
      have hneg : (fun k => - g.toVec d k) ⬝ᵥ (y - x.toVec d) = - (g.toVec d ⬝ᵥ (y - x.toVec d)) := by
        rw [← neg_dotProduct]; rfl
      have := hy.dotProduct_mulVec_nonneg (m''.witVec n)
      simp only [star_trivial] at this
      linarith

/-- a fresh `LMI0` oracle is in a valid state -/
theorem LMI0Oracle.for_new {d n : Nat} {fs : List (Arr ℝ)} (hF : SymMats d n fs) (hd : 0 < d) :
    ∃ o, LMI0Oracle.new fs = .ok o ∧ o.For n fs := by
  obtain ⟨h1, h2, _⟩ := nthMat_spec hF hd
  refine ⟨⟨fs, LDLTMgr.new n⟩, ?_, rfl, LDLTMgr.ready_new n⟩
  unfold LMI0Oracle.new
  rw [h1]
  simp only [Res.ok_bind, h2.1]

/-! ## C34 -/

/-- **C35** (construction)  `LMI0Oracle::new` panics exactly on an empty list; from symmetric `n × n` matrices it gives an
oracle whose first answer is already exact, at every point. -/
theorem C35_lmi0_new {α : Type} [Scalar α] (fs : List (Arr α)) : (LMI0Oracle.new fs = .panic ↔ fs = []) ∧
    ∀ {d n : Nat} {fs : List (Arr ℝ)} (x : Arr ℝ), 0 < d → SymMats d n fs → x.IsVecShape d →
      ∃ o r o', LMI0Oracle.new fs = .ok o ∧ o.assess x = .ok (r, o') ∧ (r = none ↔ (linMat n fs (x.toVec d)).PosDef) := by
  refine ⟨?_, fun x hd hF hx => ?_⟩
  · cases fs with
    | nil => simp [LMI0Oracle.new, nthMat, Res.ofOption]
    | cons a l => simp [LMI0Oracle.new, nthMat, Res.ofOption]
  · obtain ⟨o, h1, h2⟩ := LMI0Oracle.for_new hF hd
    obtain ⟨r, o', h3, -, h4, -⟩ := C35_lmi0_exact hF h2 hx
    exact ⟨o, r, o', h1, h3, h4⟩

/-- **C34** on the same problem and any sequence of queries, `LMIOldOracle` and `LMIOracle` give identical
answers (and panic alike), whatever the scalar arithmetic. -/
theorem C34_old_eq_new {α : Type} [Scalar α] {n : Nat} (fs : List (Arr α)) (b : Arr α)
    (hF : ∀ f ∈ fs, f.IsMatShape n n) (hb : b.IsMatShape n n) (xs : List (Arr α))
    (hx : ∀ x ∈ xs, x.len ≤ fs.length) :
    askAll LMIOracle.oracleOld (LMIOracle.new fs b) xs = askAll LMIOracle.oracle (LMIOracle.new fs b) xs := by
  have key : ∀ (o : LMIOracle α), o.matF = fs → o.matB = b → o.mgr.ndim = n →
      askAll LMIOracle.oracleOld o xs = askAll LMIOracle.oracle o xs := by
    induction xs with
    | nil => intro o _ _ _; rfl
    | cons x xs ih =>
      intro o h1 h2 h3
      have e : LMIOracle.oracleOld.assess o x = LMIOracle.oracle.assess o x :=
        LMIOracle.assessOld_eq (by rw [h1]; exact hF) (by rw [h2]; exact hb) h3
          (by rw [h1]; exact hx x (by simp))
      unfold askAll
      rw [e]
      cases hq : LMIOracle.oracle.assess o x with
      | panic => rfl
      | ok p =>
        obtain ⟨r, o'⟩ := p
        obtain ⟨e1, e2, e3⟩ := LMIOracle.assess_data hq
        simp only [Res.ok_bind]
        rw [ih (fun x hx' => hx x (by simp [hx'])) o' (e1.trans h1) (e2.trans h2) (e3.trans h3)]
  exact key _ rfl rfl hb.1

/-! ## C36 -/

/-- the LMI oracle is an honest oracle for the strictly feasible set, if that set is nonempty -/
theorem lmi_honest {d n : Nat} {fs : List (Arr ℝ)} {b : Arr ℝ} (hF : SymMats d n fs) (hb : b.IsMatShape n n)
    (hbs : (b.toMat n n).IsSymm) {y0 : Fin d → ℝ} (hy0 : (lmiMat n fs b y0).PosDef) :
    HonestFeas d (LMIOracle.oracle (α := ℝ)) (LMIOracle.For n fs b) {y | (lmiMat n fs b y).PosDef} 0 := by
  intro w x hw hx
  obtain ⟨r, w', h1, h2, h3, h4⟩ := lmi_assess hF hb hbs hw hx
  refine ⟨r, w', h1, h2, ?_⟩
  rintro g c rfl
  obtain ⟨k1, k2, k3, k4, -⟩ := h4 g c rfl
  refine ⟨k1, C33_gradient_ne_zero hF hb hbs hw hx h1 hy0, ?_, k2, ?_⟩
  · have : (0 : ℝ) ≤ g.toVec d ⬝ᵥ g.toVec d := by
      simp only [dotProduct]; exact sum_nonneg fun i _ => mul_self_nonneg _
    simpa [normSq] using this
  · intro y hy
    refine ⟨?_, fun b hb => by simp [Cut.hi] at hb⟩
    have := k4 y hy
    show _ + UpdateKind.bias.lo c.beta ≤ 0
    rw [UpdateKind.lo_bias]; exact this.le

/-- **C36** if the LMI is strictly feasible on a ball of radius `r` inside the initial ellipsoid, then for all
small enough tolerances and `max_iters` above the stated bound, `cutting_plane_feas` with a fresh `LMIOracle`
returns a point whose matrix is positive definite. -/
theorem C36_lmi_solved {d n : Nat} {fs : List (Arr ℝ)} {b : Arr ℝ} (hF : SymMats d n fs)
    (hb : b.IsMatShape n n) (hbs : (b.toMat n n).IsSymm) {p : Fin d → ℝ} {r : ℝ} (hr : 0 < r)
    (hK : ∀ y ∈ ball p r, (lmiMat n fs b y).PosDef) {e : Ell ℝ} (he : e.Valid d)
    (hE : ball p r ⊆ e.region d) :
    ∃ tol0 x k o e', 0 < tol0 ∧ x.IsVecShape d ∧ (lmiMat n fs b (x.toVec d)).PosDef ∧
      ∀ opts : Options ℝ, opts.tolerance ≤ tol0 →
        ((d : ℝ) + 1) * Real.log ((e.kappa • e.M d).det / (r ^ 2) ^ d) < opts.maxIters →
        cuttingPlaneFeas LMIOracle.oracle Ell.space (LMIOracle.new fs b) e opts = .ok ((some x, k), o, e') := by
  have hp : p ∈ ball p r := by
    show normSq (p - p) ≤ r ^ 2
    simp [normSq]; positivity
  obtain ⟨tol0, x, k, w1, o, e', h0, h1, h2, h3, h4, _⟩ := C22_feas_converges_small_tol
    LMIOracle.oracle (LMIOracle.For n fs b) {y | (lmiMat n fs b y).PosDef} r p (LMIOracle.new fs b) e
    (lmi_honest hF hb hbs (hK p hp)) (LMIOracle.for_new hb) he hr (fun y hy => hK y hy) hE
  refine ⟨tol0, x, k, o, e', h0, h4, ?_, h1⟩
  obtain ⟨r', o', q1, _, q3, _⟩ := C33_lmi_exact hF hb hbs h3 h4
  have h2' : w1.assess x = .ok (none, o) := h2
  rw [h2'] at q1
  simp only [Res.ok.injEq, Prod.mk.injEq] at q1
  exact q3.1 q1.1.symm

/-- **C33** (`update`).  The LMI oracles ignore the level that `BSearchAdaptor` hands them, in any arithmetic: a
query of the adaptor at any level is a plain run of `cutting_plane_feas` and answers the same at all levels. -/
theorem C33_level_ignored {α S : Type} [Scalar α] (sp : Space S (Arr α) (SingleCut α) α)
    (a : BSearchAdaptor (LMIOracle α) S α) (γ : α) :
    (∀ o : LMIOracle α, LMIOracle.oracle.update o γ = .ok o ∧ LMIOracle.oracleOld.update o γ = .ok o) ∧
    BSearchAdaptor.assessBs LMIOracle.oracle sp a γ =
      (cuttingPlaneFeas LMIOracle.oracle sp a.omega a.space a.options >>= fun r => match r.1.1 with
        | some x => .ok (true, { a with omega := r.2.1, space := sp.setXc a.space x })
        | none => .ok (false, { a with omega := r.2.1 })) ∧
    BSearchAdaptor.assessBs LMIOracle.oracleOld sp a γ =
      (cuttingPlaneFeas LMIOracle.oracleOld sp a.omega a.space a.options >>= fun r => match r.1.1 with
        | some x => .ok (true, { a with omega := r.2.1, space := sp.setXc a.space x })
        | none => .ok (false, { a with omega := r.2.1 })) := by
  refine ⟨fun _ => ⟨rfl, rfl⟩, ?_, ?_⟩
  · unfold BSearchAdaptor.assessBs
    have h : LMIOracle.oracle.update a.omega γ = .ok a.omega := rfl
    rw [h, Res.ok_bind]
    cases cuttingPlaneFeas LMIOracle.oracle sp a.omega a.space a.options with
    | panic => rfl
    | ok r =>
      obtain ⟨⟨x, k⟩, w, s⟩ := r
      cases x <;> rfl
  · unfold BSearchAdaptor.assessBs
    have h : LMIOracle.oracleOld.update a.omega γ = .ok a.omega := rfl
    rw [h, Res.ok_bind]
    cases cuttingPlaneFeas LMIOracle.oracleOld sp a.omega a.space a.options with
    | panic => rfl
    | ok r =>
      obtain ⟨⟨x, k⟩, w, s⟩ := r
      cases x <;> rfl

end Ellalgo

import Verif.Lib.CgMath

/-! # Properties C37-C39: conjugate gradient -/

namespace Ellalgo
open Matrix

variable {n : Nat}

/-- one iteration of the loop on well-shaped arrays -/
theorem cgLoop_step {a x r p : Arr ℝ} {A : Matrix (Fin n) (Fin n) ℝ} {s : CgSt n} (hn : 0 < n) (ha : RM a A)
    (hx : RV x s.x) (hr : RV r s.r) (hp : RV p s.p) (tol : ℝ) (k : Nat) :
    (s.p ⬝ᵥ (A *ᵥ s.p) = 0 ∧ cgLoop a n tol (k + 1) x r p (s.r ⬝ᵥ s.r) = .ok (.error .breakdown)) ∨
    (s.p ⬝ᵥ (A *ᵥ s.p) ≠ 0 ∧ ∃ x' r' p', RV x' (cgStep A s).x ∧ RV r' (cgStep A s).r ∧ RV p' (cgStep A s).p ∧
      cgLoop a n tol (k + 1) x r p (s.r ⬝ᵥ s.r) =
        if Real.sqrt ((cgStep A s).r ⬝ᵥ (cgStep A s).r) < tol then .ok (.ok x')
        else cgLoop a n tol k x' r' p' ((cgStep A s).r ⬝ᵥ (cgStep A s).r)) := by
  obtain ⟨ad, h1, had⟩ := ha.dotMv hp hn
  by_cases h0 : s.p ⬝ᵥ (A *ᵥ s.p) = 0
  · left
    refine ⟨h0, ?_⟩
    simp only [cgLoop, h1, Res.ok_bind, hp.dot had, h0, Scalar.real_beq, decide_true, if_true]
  · right
    obtain ⟨x', h2, hx'⟩ := cgAxpy_spec ((s.r ⬝ᵥ s.r) / (s.p ⬝ᵥ (A *ᵥ s.p))) hp hx
    obtain ⟨r', h3, hr'⟩ := cgAxmy_spec ((s.r ⬝ᵥ s.r) / (s.p ⬝ᵥ (A *ᵥ s.p))) had hr
    obtain ⟨p', h4, hp'⟩ := cgXpay_spec (((cgStep A s).r ⬝ᵥ (cgStep A s).r) / (s.r ⬝ᵥ s.r))
      (show RV r' (cgStep A s).r from hr') hp
    have hrr : r'.dot r' = .ok ((cgStep A s).r ⬝ᵥ (cgStep A s).r) := RV.dot hr' hr'
    refine ⟨h0, x', r', p', hx', hr', hp', ?_⟩
    simp only [cgLoop, h1, Res.ok_bind, hp.dot had, h0, Scalar.real_beq, if_false, h2, h3, hrr,
      Scalar.real_sqrt, Scalar.real_lt, decide_eq_true_eq, h4]

/-- the entry of `conjugate_gradient` -/
theorem cg_entry {a b : Arr ℝ} {A : Matrix (Fin n) (Fin n) ℝ} {bv xv : Fin n → ℝ} {x0 : Option (Arr ℝ)}
    (hn : 0 < n) (ha : RM a A) (hb : RV b bv) (hx : RV (x0.getD (Arr.new n)) xv) (tol : ℝ) (m : Nat) :
    ∃ r, RV r (bv - A *ᵥ xv) ∧ conjugateGradient a b x0 tol m =
      cgLoop a n tol m (x0.getD (Arr.new n)) r r ((bv - A *ᵥ xv) ⬝ᵥ (bv - A *ᵥ xv)) := by
  obtain ⟨ax, h1, hax⟩ := ha.dotMv hx hn
  obtain ⟨r, h2, hr⟩ := hb.sub hax
  refine ⟨r, hr, ?_⟩
  simp only [conjugateGradient, hb.len, h1, h2, hr.dot hr, Res.ok_bind]

/-! ## C37 -/

theorem cgLoop_residual {a : Arr ℝ} {A : Matrix (Fin n) (Fin n) ℝ} {bv : Fin n → ℝ} (hn : 0 < n) (ha : RM a A)
    {tol : ℝ} (k : Nat) {x r p xf : Arr ℝ} {s : CgSt n} (hx : RV x s.x) (hr : RV r s.r) (hp : RV p s.p)
    (hres : s.r = bv - A *ᵥ s.x) (hok : cgLoop a n tol k x r p (s.r ⬝ᵥ s.r) = .ok (.ok xf)) :
    ∃ v : Fin n → ℝ, RV xf v ∧ Real.sqrt ((bv - A *ᵥ v) ⬝ᵥ (bv - A *ᵥ v)) < tol := by
  induction k generalizing x r p s with
  | zero => simp [cgLoop] at hok
  | succ k ih =>
    rcases cgLoop_step hn ha hx hr hp tol k with ⟨_, h⟩ | ⟨_, x', r', p', hx', hr', hp', h⟩
    · rw [h] at hok; simp at hok
    · have hres' : (cgStep A s).r = bv - A *ᵥ (cgStep A s).x := by
        simp only [cgStep]
        rw [mulVec_add, mulVec_smul, hres]
        abel
      rw [h] at hok
      split at hok
      · rename_i hlt
        simp only [Res.ok.injEq, Except.ok.injEq] at hok
        subst hok
        exact ⟨_, hx', by rw [← hres']; exact hlt⟩
      · exact ih hx' hr' hp' hres' hok

theorem cgLoop_zero {a x r p : Arr ℝ} {m : Nat} {tol rr : ℝ} {xf : Arr ℝ} :
    cgLoop a m tol 0 x r p rr ≠ .ok (.ok xf) := by simp [cgLoop]

/-- **C37** Whatever the (well-formed) arguments are, `Ok(x)` from `conjugate_gradient` means that the shapes
match and that the true residual `b - A x` of the returned `x` has Euclidean norm below `tol`. -/
theorem C37_ok_small_residual {a b : Arr ℝ} {x0 : Option (Arr ℝ)} {x : Arr ℝ} {r c m k : Nat} {tol : ℝ}
    {maxIter : Nat} (ha : a.IsMatShape r c) (hb : b.IsVecShape m) (hx0 : ∀ y, x0 = some y → y.IsVecShape k)
    (hok : conjugateGradient a b x0 tol maxIter = .ok (.ok x)) :
    r = m ∧ c = m ∧ x.IsVecShape m ∧
    Real.sqrt ((b.toVec m - a.toMat m m *ᵥ x.toVec m) ⬝ᵥ (b.toVec m - a.toMat m m *ᵥ x.toVec m)) < tol := by
  have hb' : RV b (b.toVec m) := ⟨hb, rfl⟩
  -- shapes
  have hshape : r = m ∧ c = m ∧ 0 < c ∧ (x0.getD (Arr.new m)).IsVecShape m := by
    have hok' := hok
    unfold conjugateGradient at hok'
    obtain ⟨ax, h1, hok'⟩ := Res.bind_eq_ok.1 hok'
    obtain ⟨res, h2, hok'⟩ := Res.bind_eq_ok.1 hok'
    obtain ⟨rr, h3, hok'⟩ := Res.bind_eq_ok.1 hok'
    have hc : 0 < c := by
      unfold Arr.dotMv at h1
      obtain ⟨_, h, _⟩ := Res.bind_eq_ok.1 h1
      rw [Res.assert_eq_ok] at h
      simpa [Arr.is2d, ha.2.1] using h
    have hxl : (x0.getD (Arr.new b.len)).len = c ∧ (x0.getD (Arr.new b.len)).IsVecShape c := by
      have hl : (x0.getD (Arr.new b.len)).len = c := by
        unfold Arr.dotMv at h1
        obtain ⟨_, _, h1⟩ := Res.bind_eq_ok.1 h1
        obtain ⟨_, _, h1⟩ := Res.bind_eq_ok.1 h1
        obtain ⟨_, h, _⟩ := Res.bind_eq_ok.1 h1
        rw [Res.assert_eq_ok] at h
        have := beq_iff_eq.1 h
        rw [ha.2.1] at this
        exact this.symm
      refine ⟨hl, ?_⟩
      cases x0 with
      | none =>
        simp only [Option.getD_none] at hl ⊢
        rw [← hl, (isVec_new (α := ℝ) b.len).len']
        exact (isVec_new _).shape
      | some y =>
        have hy := hx0 y rfl
        simp only [Option.getD_some] at hl ⊢
        have : k = c := hy.2.2.symm.trans hl
        rw [← this]; exact hy
    obtain ⟨ax', h1', hax⟩ := RM.dotMv (A := a.toMat r c) ⟨ha, rfl⟩ (v := (x0.getD (Arr.new b.len)).toVec c)
      ⟨hxl.2, rfl⟩ hc
    rw [h1] at h1'
    injection h1' with h1'
    subst h1'
    have hmr : m = r := by
      unfold Arr.sub Arr.zipWith at h2
      obtain ⟨_, h, _⟩ := Res.bind_eq_ok.1 h2
      rw [Res.assert_eq_ok] at h
      have := beq_iff_eq.1 h
      rw [hb'.len, hax.len] at this
      exact this
    subst hmr
    obtain ⟨res', h2', hres⟩ := hb'.sub hax
    rw [h2] at h2'
    injection h2' with h2'
    subst h2'
    cases maxIter with
    | zero => exact absurd hok' cgLoop_zero
    | succ j =>
      unfold cgLoop at hok'
      obtain ⟨ad, h4, _⟩ := Res.bind_eq_ok.1 hok'
      have hcm : c = m := by
        unfold Arr.dotMv at h4
        obtain ⟨_, _, h4⟩ := Res.bind_eq_ok.1 h4
        obtain ⟨_, _, h4⟩ := Res.bind_eq_ok.1 h4
        obtain ⟨_, h, _⟩ := Res.bind_eq_ok.1 h4
        rw [Res.assert_eq_ok] at h
        have := beq_iff_eq.1 h
        rw [hres.len, ha.2.1] at this
        exact this
      refine ⟨rfl, hcm, hc, ?_⟩
      have hx2 := hxl.2
      rwa [hb'.len, hcm] at hx2
  obtain ⟨rfl, rfl, hc, hxs⟩ := hshape
  obtain ⟨res, hres, he⟩ := cg_entry (A := a.toMat c c) (xv := (x0.getD (Arr.new c)).toVec c) hc ⟨ha, rfl⟩ hb'
    ⟨hxs, rfl⟩ tol maxIter
  rw [he] at hok
  obtain ⟨v, hv, hlt⟩ := cgLoop_residual (bv := b.toVec c) hc ⟨ha, rfl⟩ maxIter
    (s := ⟨_, b.toVec c - a.toMat c c *ᵥ (x0.getD (Arr.new c)).toVec c, _⟩) (xf := x) ⟨hxs, rfl⟩ hres hres rfl hok
  refine ⟨rfl, rfl, hv.1, ?_⟩
  rw [hv.2]; exact hlt

/-! ## C38 -/

theorem cgLoop_converges {a : Arr ℝ} {A : Matrix (Fin n) (Fin n) ℝ} (hn : 0 < n) (ha : RM a A) (hA : A.IsSymm)
    (hpos : ∀ v : Fin n → ℝ, v ≠ 0 → 0 < v ⬝ᵥ (A *ᵥ v)) {s : CgSt n} (hs : s.p = s.r) {tol : ℝ} (htol : 0 < tol)
    (k j : Nat) {x r p : Arr ℝ} (hx : RV x (cgIter A s j).x) (hr : RV r (cgIter A s j).r)
    (hp : RV p (cgIter A s j).p) (hne : ∀ i ≤ j, (cgIter A s i).r ≠ 0) (hk : n ≤ j + k) :
    ∃ xf, cgLoop a n tol k x r p ((cgIter A s j).r ⬝ᵥ (cgIter A s j).r) = .ok (.ok xf) := by
  induction k generalizing j x r p with
  | zero =>
    have := cg_terminates hA hpos hs j hne
    omega
  | succ k ih =>
    have horth := (cg_orth hA hpos hs j hne).1 j le_rfl
    have hp0 : (cgIter A s j).p ≠ 0 := by
      intro h0
      rw [h0, dotProduct_zero] at horth
      exact (dot_self_pos (hne j le_rfl)).ne horth
    rcases cgLoop_step hn ha hx hr hp tol k with ⟨h0, _⟩ | ⟨_, x', r', p', hx', hr', hp', h⟩
    · exact absurd h0 (hpos _ hp0).ne'
    · rw [h]
      split
      · exact ⟨x', rfl⟩
      · rename_i hge
        refine ih (j + 1) hx' hr' hp' ?_ (by omega)
        intro i hi
        rcases Nat.lt_or_ge i (j + 1) with h1 | h1
        · exact hne i (by omega)
        · obtain rfl : i = j + 1 := by omega
          intro h0
          apply hge
          have : (cgStep A (cgIter A s j)).r = 0 := h0
          rw [this]
          simpa using htol

/-- **C38** For a symmetric positive definite `A` of size `n`, `tol > 0`, at least `n` allowed iterations and a
starting point that does not already solve the system, `conjugate_gradient` returns `Ok`. -/
theorem C38_spd_converges {a b : Arr ℝ} {x0 : Option (Arr ℝ)} {tol : ℝ} {maxIter : Nat}
    (ha : a.IsMatShape n n) (hb : b.IsVecShape n) (hx0 : ∀ y, x0 = some y → y.IsVecShape n)
    (hpd : (a.toMat n n).PosDef) (htol : 0 < tol) (hm : n ≤ maxIter)
    (hstart : a.toMat n n *ᵥ (x0.getD (Arr.new n)).toVec n ≠ b.toVec n) :
    ∃ x, conjugateGradient a b x0 tol maxIter = .ok (.ok x) := by
  have hn : 0 < n := by
    rcases Nat.eq_zero_or_pos n with h | h
    · subst h; exact absurd (Subsingleton.elim _ _) hstart
    · exact h
  have hsym : (a.toMat n n).IsSymm := by
    have := hpd.1
    rw [IsHermitian, conjTranspose_eq_transpose_of_trivial] at this
    exact this
  have hpos : ∀ v : Fin n → ℝ, v ≠ 0 → 0 < v ⬝ᵥ (a.toMat n n *ᵥ v) := by
    intro v hv
    have := hpd.dotProduct_mulVec_pos hv
    simpa only [star_trivial] using this
  have hxs : (x0.getD (Arr.new n)).IsVecShape n := by
    cases x0 with
    | none => exact (isVec_new n).shape
    | some y => exact hx0 y rfl
  obtain ⟨r, hr, he⟩ := cg_entry (A := a.toMat n n) (xv := (x0.getD (Arr.new n)).toVec n) hn ⟨ha, rfl⟩
    (⟨hb, rfl⟩ : RV b (b.toVec n)) ⟨hxs, rfl⟩ tol maxIter
  rw [he]
  set s : CgSt n := ⟨(x0.getD (Arr.new n)).toVec n, b.toVec n - a.toMat n n *ᵥ (x0.getD (Arr.new n)).toVec n,
    b.toVec n - a.toMat n n *ᵥ (x0.getD (Arr.new n)).toVec n⟩ with hs
  refine cgLoop_converges hn ⟨ha, rfl⟩ hsym hpos (s := s) rfl htol maxIter 0 ⟨hxs, rfl⟩ hr hr ?_ (by omega)
  intro i hi h0
  obtain rfl : i = 0 := by omega
  exact hstart (sub_eq_zero.1 h0).symm

/-! ## C54 -/

/-- squared energy norm of the error of `x` with respect to the solution `xs` -/
def energyErr (A : Matrix (Fin n) (Fin n) ℝ) (xs x : Fin n → ℝ) : ℝ := (x - xs) ⬝ᵥ (A *ᵥ (x - xs))

theorem energy_step {A : Matrix (Fin n) (Fin n) ℝ} (hA : A.IsSymm) {s : CgSt n} {xs : Fin n → ℝ}
    (hres : s.r = A *ᵥ xs - A *ᵥ s.x) (hrp : s.r ⬝ᵥ s.p = s.r ⬝ᵥ s.r) (hpp : 0 < s.p ⬝ᵥ (A *ᵥ s.p))
    (hr0 : 0 < s.r ⬝ᵥ s.r) : energyErr A xs (cgStep A s).x < energyErr A xs s.x := by
  set al := (s.r ⬝ᵥ s.r) / (s.p ⬝ᵥ (A *ᵥ s.p)) with hal
  have e1 : (cgStep A s).x - xs = (s.x - xs) + al • s.p := by
    simp only [cgStep]; rw [← hal]; abel
  have e2 : s.p ⬝ᵥ (A *ᵥ (s.x - xs)) = - (s.r ⬝ᵥ s.r) := by
    rw [← hrp, hres, mulVec_sub, dotProduct_comm s.p, ← neg_dotProduct, neg_sub]
  have e3 : (s.x - xs) ⬝ᵥ (A *ᵥ s.p) = - (s.r ⬝ᵥ s.r) := by rw [sym_dot hA, e2]
  unfold energyErr
  rw [e1, mulVec_add, mulVec_smul, add_dotProduct, dotProduct_add, dotProduct_add, smul_dotProduct,
    smul_dotProduct, dotProduct_smul, dotProduct_smul, e2, e3]
  simp only [smul_eq_mul]
  have h5 : al * (s.p ⬝ᵥ (A *ᵥ s.p)) = s.r ⬝ᵥ s.r := div_mul_cancel₀ _ hpp.ne'
  have h6 : 0 < al := div_pos hr0 hpp
  rw [h5]
  nlinarith [mul_pos h6 hr0]

theorem cgLoop_energy {a : Arr ℝ} {A : Matrix (Fin n) (Fin n) ℝ} (hn : 0 < n) (ha : RM a A) (hA : A.IsSymm)
    (hpos : ∀ v : Fin n → ℝ, v ≠ 0 → 0 < v ⬝ᵥ (A *ᵥ v)) {s : CgSt n} (hs : s.p = s.r) {tol : ℝ} (htol : 0 < tol)
    {xs : Fin n → ℝ} (k j : Nat) {x r p xf : Arr ℝ} (hx : RV x (cgIter A s j).x) (hr : RV r (cgIter A s j).r)
    (hp : RV p (cgIter A s j).p) (hne : ∀ i ≤ j, (cgIter A s i).r ≠ 0)
    (hres : (cgIter A s j).r = A *ᵥ xs - A *ᵥ (cgIter A s j).x)
    (hok : cgLoop a n tol k x r p ((cgIter A s j).r ⬝ᵥ (cgIter A s j).r) = .ok (.ok xf)) :
    energyErr A xs (xf.toVec n) < energyErr A xs (cgIter A s j).x := by
  induction k generalizing j x r p with
  | zero => exact absurd hok cgLoop_zero
  | succ k ih =>
    have horth := (cg_orth hA hpos hs j hne).1 j le_rfl
    have hr0 := dot_self_pos (hne j le_rfl)
    have hp0 : (cgIter A s j).p ≠ 0 := by
      intro h0
      rw [h0, dotProduct_zero] at horth
      exact hr0.ne horth
    have hlt := energy_step hA hres horth (hpos _ hp0) hr0
    rcases cgLoop_step hn ha hx hr hp tol k with ⟨h0, _⟩ | ⟨_, x', r', p', hx', hr', hp', h⟩
    · exact absurd h0 (hpos _ hp0).ne'
    · rw [h] at hok
      split at hok
      · simp only [Res.ok.injEq, Except.ok.injEq] at hok
        subst hok
        rw [hx'.2]; exact hlt
      · rename_i hge
        refine lt_trans (ih (j + 1) hx' hr' hp' ?_ ?_ hok) hlt
        · intro i hi
          rcases Nat.lt_or_ge i (j + 1) with h1 | h1
          · exact hne i (by omega)
          · obtain rfl : i = j + 1 := by omega
            intro h0
            apply hge
            have : (cgStep A (cgIter A s j)).r = 0 := h0
            rw [this]
            simpa using htol
        · simp only [cgIter, cgStep]
          rw [mulVec_add, mulVec_smul, hres]
          abel

/-- **C54** On a symmetric positive definite system with solution `xs` an accepted `x` is strictly closer to
`xs` in the energy norm `vᵀ A v` than the starting point. -/
theorem C54_energy_decreases {a b : Arr ℝ} {x0 : Option (Arr ℝ)} {x : Arr ℝ} {tol : ℝ} {maxIter : Nat}
    {xs : Fin n → ℝ} (hn : 0 < n) (ha : a.IsMatShape n n) (hb : b.IsVecShape n)
    (hx0 : ∀ y, x0 = some y → y.IsVecShape n) (hpd : (a.toMat n n).PosDef) (htol : 0 < tol)
    (hxs : a.toMat n n *ᵥ xs = b.toVec n) (hok : conjugateGradient a b x0 tol maxIter = .ok (.ok x)) :
    (x.toVec n - xs) ⬝ᵥ (a.toMat n n *ᵥ (x.toVec n - xs)) <
      ((x0.getD (Arr.new n)).toVec n - xs) ⬝ᵥ (a.toMat n n *ᵥ ((x0.getD (Arr.new n)).toVec n - xs)) := by
  have hsym : (a.toMat n n).IsSymm := by
    have := hpd.1
    rw [IsHermitian, conjTranspose_eq_transpose_of_trivial] at this
    exact this
  have hpos : ∀ v : Fin n → ℝ, v ≠ 0 → 0 < v ⬝ᵥ (a.toMat n n *ᵥ v) := by
    intro v hv
    have := hpd.dotProduct_mulVec_pos hv
    simpa only [star_trivial] using this
  have hsh : (x0.getD (Arr.new n)).IsVecShape n := by
    cases x0 with
    | none => exact (isVec_new n).shape
    | some y => exact hx0 y rfl
  obtain ⟨r, hr, he⟩ := cg_entry (A := a.toMat n n) (xv := (x0.getD (Arr.new n)).toVec n) hn ⟨ha, rfl⟩
    (⟨hb, rfl⟩ : RV b (b.toVec n)) ⟨hsh, rfl⟩ tol maxIter
  rw [he] at hok
  set s : CgSt n := ⟨(x0.getD (Arr.new n)).toVec n, b.toVec n - a.toMat n n *ᵥ (x0.getD (Arr.new n)).toVec n,
    b.toVec n - a.toMat n n *ᵥ (x0.getD (Arr.new n)).toVec n⟩ with hs
  have hr0 : s.r ≠ 0 := by
    intro h0
    rw [show b.toVec n - a.toMat n n *ᵥ (x0.getD (Arr.new n)).toVec n = 0 from h0] at hok hr
    cases maxIter with
    | zero => exact absurd hok cgLoop_zero
    | succ k =>
      rcases cgLoop_step (s := ⟨(x0.getD (Arr.new n)).toVec n, 0, 0⟩) hn (⟨ha, rfl⟩ : RM a (a.toMat n n))
        ⟨hsh, rfl⟩ hr hr tol k with ⟨_, h⟩ | ⟨h, _⟩
      · simp only at h; rw [h] at hok; simp at hok
      · simp at h
  exact cgLoop_energy hn ⟨ha, rfl⟩ hsym hpos (s := s) rfl htol maxIter 0 ⟨hsh, rfl⟩ hr hr
    (fun i hi => by obtain rfl : i = 0 := by omega
                    exact hr0)
    (by rw [hxs]; rfl) hok

/-! ## C39: false of the code -/

/-- **C39 (refuted)** An exact starting point is never accepted: for every `A`, `b`, `x0` with `A x0 = b`, every
tolerance and every number of iterations the result is `Err`.  With at least one iteration allowed it is
the "did not converge" error. -/
theorem C39_exact_start_rejected {a b : Arr ℝ} {x0 : Option (Arr ℝ)} {tol : ℝ} {maxIter : Nat} (hn : 0 < n)
    (ha : a.IsMatShape n n) (hb : b.IsVecShape n) (hx0 : ∀ y, x0 = some y → y.IsVecShape n)
    (hstart : a.toMat n n *ᵥ (x0.getD (Arr.new n)).toVec n = b.toVec n) :
    conjugateGradient a b x0 tol maxIter =
      .ok (.error (if maxIter = 0 then CgErr.maxIters else CgErr.breakdown)) := by
  have hxs : (x0.getD (Arr.new n)).IsVecShape n := by
    cases x0 with
    | none => exact (isVec_new n).shape
    | some y => exact hx0 y rfl
  obtain ⟨r, hr, he⟩ := cg_entry (A := a.toMat n n) (xv := (x0.getD (Arr.new n)).toVec n) hn ⟨ha, rfl⟩
    (⟨hb, rfl⟩ : RV b (b.toVec n)) ⟨hxs, rfl⟩ tol maxIter
  rw [he]
  rw [hstart, sub_self] at hr ⊢
  cases maxIter with
  | zero => rfl
  | succ k =>
    rcases cgLoop_step (s := ⟨(x0.getD (Arr.new n)).toVec n, 0, 0⟩) hn (⟨ha, rfl⟩ : RM a (a.toMat n n))
      ⟨hxs, rfl⟩ hr hr tol k with ⟨_, h⟩ | ⟨h, _⟩
    · simpa using h
    · simp at h

/-- **C39 (partial)** What remains true of an exact starting point: the call does not panic and does not
return a wrong answer (it returns an error instead of `Ok(x0)`). -/
theorem C39_no_wrong_answer_partial {a b : Arr ℝ} {x0 : Option (Arr ℝ)} {tol : ℝ} {maxIter : Nat} (hn : 0 < n)
    (ha : a.IsMatShape n n) (hb : b.IsVecShape n) (hx0 : ∀ y, x0 = some y → y.IsVecShape n)
    (hstart : a.toMat n n *ᵥ (x0.getD (Arr.new n)).toVec n = b.toVec n) :
    ∃ e, conjugateGradient a b x0 tol maxIter = .ok (.error e) :=
  ⟨_, C39_exact_start_rejected hn ha hb hx0 hstart⟩

/-! ## The system of the repository's own tests meets the hypotheses -/

namespace ExCg

/-- `[[4,1],[1,3]]` -/
def a2 : Arr ℝ := ⟨[4, 1, 1, 3], 2, 2⟩
/-- `(1,2)` -/
def b2 : Arr ℝ := ⟨[1, 2], 2, 0⟩

theorem a2_shape : a2.IsMatShape 2 2 := ⟨rfl, rfl, rfl⟩
theorem b2_shape : b2.IsVecShape 2 := ⟨rfl, rfl, rfl⟩
theorem a2_mat : a2.toMat 2 2 = !![4, 1; 1, 3] := by
  ext i j; fin_cases i <;> fin_cases j <;> simp [a2, Arr.toMat, Arr.mat]
theorem b2_vec : b2.toVec 2 = ![1, 2] := by
  ext i; fin_cases i <;> simp [b2, Arr.toVec, Arr.vec]

theorem a2_posDef : (a2.toMat 2 2).PosDef := by
  rw [a2_mat]
  refine Matrix.PosDef.of_dotProduct_mulVec_pos ?_ fun v hv => ?_
  · rw [IsHermitian, conjTranspose_eq_transpose_of_trivial]
    ext i j; fin_cases i <;> fin_cases j <;> rfl
  · rw [star_trivial]
    have e : v ⬝ᵥ (!![4, 1; 1, 3] *ᵥ v) = 3 * v 0 ^ 2 + 2 * v 1 ^ 2 + (v 0 + v 1) ^ 2 := by
      simp [dotProduct, mulVec, Fin.sum_univ_two]; ring
    rw [e]
    by_cases h0 : v 0 = 0
    · have h1 : v 1 ≠ 0 := by
        intro h1; apply hv; ext i; fin_cases i <;> simp [h0, h1]
      positivity
    · positivity

theorem start_not_exact : a2.toMat 2 2 *ᵥ ((none : Option (Arr ℝ)).getD (Arr.new 2)).toVec 2 ≠ b2.toVec 2 := by
  intro h
  have h0 := congrFun h 0
  rw [b2_vec] at h0
  have : ((none : Option (Arr ℝ)).getD (Arr.new 2)).toVec 2 = 0 := rv_new.2
  rw [this, mulVec_zero] at h0
  simp at h0

/-- C37, C38 and C54 on that system: two iterations are enough, and what they claim of the answer holds -/
example : ∃ x, conjugateGradient a2 b2 none (1 / 100000) 2 = .ok (.ok x) ∧
    Real.sqrt ((b2.toVec 2 - a2.toMat 2 2 *ᵥ x.toVec 2) ⬝ᵥ (b2.toVec 2 - a2.toMat 2 2 *ᵥ x.toVec 2)) < 1 / 100000 := by
  obtain ⟨x, hx⟩ := C38_spd_converges (tol := 1 / 100000) (maxIter := 2) a2_shape b2_shape
    (fun y h => by simp at h) a2_posDef (by norm_num) le_rfl start_not_exact
  exact ⟨x, hx, (C37_ok_small_residual (k := 2) a2_shape b2_shape (fun y h => by simp at h) hx).2.2.2⟩

/-- `b = 0` without an initial guess is an exact start: it is rejected -/
example : conjugateGradient a2 (Arr.new 2) none (1 / 100000) 1000 = .ok (.error CgErr.breakdown) := by
  have := C39_exact_start_rejected (x0 := none) (tol := 1 / 100000) (maxIter := 1000) (by norm_num) a2_shape
    (isVec_new 2).shape (fun y h => by simp at h)
    (by rw [Option.getD_none, rv_new.2, mulVec_zero])
  simpa using this

end ExCg
end Ellalgo

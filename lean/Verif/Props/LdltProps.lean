import Verif.Lib.LdltOps

/-! # Properties C29-C32: the LDLᵀ manager -/

namespace Ellalgo
open Finset Matrix

namespace LDLTMgr

/-- A freshly created manager is ready. -/
theorem ready_new (n : Nat) : (LDLTMgr.new n : LDLTMgr ℝ).Ready n :=
  ⟨rfl, (isMat_zeros n n).shape, (isVec_new n).shape⟩

theorem factor_cases {m : LDLTMgr ℝ} {n : Nat} {getElem : Nat → Nat → Res ℝ} {A : Nat → Nat → ℝ}
    (hm : m.Ready n) (hA : ∀ i j, j ≤ i → i < n → getElem i j = .ok (A i j)) :
    ∃ b m' S, m.factor getElem = .ok (b, m') ∧ m'.ndim = n ∧ IsMat m'.storage n n S ∧ m'.wit = m.wit ∧
      ((b = true ∧ m'.pos = (0, 0) ∧ Blk A S 0 n ∧ ∀ a, a < n → 0 < S a a) ∨
       (b = false ∧ ∃ p, p < n ∧ m'.pos = (0, p + 1) ∧ Blk A S 0 (p + 1) ∧ (∀ a, a < p → 0 < S a a) ∧
          S p p ≤ 0)) := by
  obtain ⟨hn, hS, hw⟩ := hm
  obtain ⟨pos, st', S', hl, hm', hh⟩ := factorLoop_spec hA n 0 m.storage m.storage.mat (by omega) hS.isMat
    (fun a h1 h2 => absurd h2 (by omega)) (fun a h => absurd h (by omega))
  refine ⟨LDLTMgr.isSpd { m with pos := pos, storage := st' }, { m with pos := pos, storage := st' }, S', ?_, hn, hm', rfl, ?_⟩
  · unfold factor
    rw [hn, hl]; rfl
  · rcases hh with ⟨h1, h2, h3⟩ | ⟨p, h1, h2, h3, h4, h5⟩
    · left; exact ⟨by simp [isSpd, h1], h1, h2, h3⟩
    · right; exact ⟨by simp [isSpd, h2], p, h1, h2, h3, h4, h5⟩

theorem factorSemi_cases {m : LDLTMgr ℝ} {n : Nat} {getElem : Nat → Nat → Res ℝ} {A : Nat → Nat → ℝ}
    (hm : m.Ready n) (hA : ∀ i j, j ≤ i → i < n → getElem i j = .ok (A i j)) :
    ∃ b m' S, m.factorSemi getElem = .ok (b, m') ∧ m'.ndim = n ∧ IsMat m'.storage n n S ∧ m'.wit = m.wit ∧
      ((b = true ∧ m'.pos = (0, 0)) ∨
       (b = false ∧ ∃ s p, s ≤ p ∧ p < n ∧ m'.pos = (s, p + 1) ∧ Blk A S s (p + 1) ∧
          (∀ a, s ≤ a → a < p → 0 < S a a) ∧ S p p < 0)) := by
  obtain ⟨hn, hS, hw⟩ := hm
  obtain ⟨pos, st', S', hl, hm', hh⟩ := factorSemiLoop_spec hA n 0 0 m.storage m.storage.mat (by omega) (le_refl _)
    hS.isMat (fun a h1 h2 => absurd h2 (by omega)) (fun a h1 h => absurd h (by omega))
  refine ⟨LDLTMgr.isSpd { m with pos := pos, storage := st' }, { m with pos := pos, storage := st' }, S', ?_, hn, hm', rfl, ?_⟩
  · unfold factorSemi
    rw [hn, hl]; rfl
  · rcases hh with h1 | ⟨s, p, h0, h1, h2, h3, h4, h5⟩
    · left; exact ⟨by simp [isSpd, h1], h1⟩
    · right; exact ⟨by simp [isSpd, h2], s, p, h0, h1, h2, h3, h4, h5⟩

/-- the witness after a failed factorisation, in matrix form -/
theorem witness_cases {m : LDLTMgr ℝ} {n s p : Nat} {A S : Nat → Nat → ℝ} (hn : m.ndim = n)
    (hS : IsMat m.storage n n S) (hw : m.wit.IsVecShape n) (hsp : s ≤ p) (hp : p < n)
    (hpos : m.pos = (s, p + 1)) (hb : Blk A S s (p + 1)) (hd : ∀ a, s ≤ a → a < p → 0 < S a a) :
    ∃ m', m.witness = .ok (- S p p, m') ∧ m'.Ready n ∧ m'.pos = m.pos ∧ m'.wit.vec p = 1 ∧
      m'.witVec n ⬝ᵥ (lowerSym n A *ᵥ m'.witVec n) = S p p ∧
      ∀ F : Arr ℝ, F.IsMatShape n n → m'.symQuad F = .ok (m'.witVec n ⬝ᵥ (F.toMat n n *ᵥ m'.witVec n)) := by
  obtain ⟨wit', v, h1, hv, hvp, hvi⟩ := witness_spec hn hS hw.isVec hpos hsp hp
  have hwv : ({ m with wit := wit' } : LDLTMgr ℝ).witVec n
      = fun i : Fin n => if s ≤ (i : Nat) ∧ (i : Nat) < p + 1 then v i else 0 := by
    funext i
    simp only [witVec, hpos]
    split
    · exact hv.vec i.2
    · rfl
  refine ⟨{ m with wit := wit' }, h1, ⟨hn, hS.shape, hv.shape⟩, rfl, (hv.vec hp).trans hvp, ?_, ?_⟩
  · rw [hwv, lowerSym_eq, quad_fin_if (by omega)]
    exact blk_wit hsp hb (fun a h1 h2 => (hd a h1 h2).ne') hvp hvi
  · intro F hF
    have h2 := symQuad_spec (m := { m with wit := wit' }) hv hF.isMat (by simp only [hpos]; omega)
      (by simp only [hpos]; omega)
    rw [h2, hwv]
    simp only [hpos]
    rw [← quad_fin_if (n := n) (by omega)]
    rfl

end LDLTMgr

/-! ## C29 -/

/-- **C29** `factor` returns `true` iff the symmetric matrix with the given lower triangle is positive
definite; it never panics, and it leaves the manager ready for the next call. -/
theorem C29_factor_iff_posDef {m : LDLTMgr ℝ} {n : Nat} {getElem : Nat → Nat → Res ℝ} {A : Nat → Nat → ℝ}
    (hm : m.Ready n) (hA : ∀ i j, j ≤ i → i < n → getElem i j = .ok (A i j)) :
    ∃ b m', m.factor getElem = .ok (b, m') ∧ m'.Ready n ∧ (b = true ↔ (lowerSym n A).PosDef) := by
  obtain ⟨b, m', S, h1, hn, hS, hw, hh⟩ := LDLTMgr.factor_cases hm hA
  have hr : m'.Ready n := ⟨hn, hS.shape, by rw [hw]; exact hm.2.2⟩
  refine ⟨b, m', h1, hr, ?_⟩
  rcases hh with ⟨rfl, _, h2, h3⟩ | ⟨rfl, p, hp, hpos, h2, h3, h4⟩
  · simpa using LDLTMgr.posDef_of_blk h2 h3
  · obtain ⟨m'', _, _, hpos'', hv1, hq, _⟩ := LDLTMgr.witness_cases hn hS hr.2.2 (Nat.zero_le p) hp hpos h2
      (fun a _ h => h3 a h)
    constructor
    · intro h; simp at h
    · intro hpd
      exfalso
      have hne : m''.witVec n ≠ 0 := by
        intro h0
        rw [h0] at hq
        have hp0 := congrFun h0 ⟨p, hp⟩
        simp only [LDLTMgr.witVec, hpos'', hpos, hv1, Pi.zero_apply] at hp0
        simp at hp0
      have := (posDef_iff_real.1 hpd).2 _ hne
      linarith

/-- **C29** for `factorize` on a full symmetric matrix -/
theorem C29_factorize_iff_posDef {m : LDLTMgr ℝ} {n : Nat} {mat : Arr ℝ} (hm : m.Ready n)
    (hmat : mat.IsMatShape n n) (hsym : (mat.toMat n n).IsSymm) :
    ∃ b m', m.factorize mat = .ok (b, m') ∧ m'.Ready n ∧ (b = true ↔ (mat.toMat n n).PosDef) := by
  obtain ⟨b, m', h1, h2, h3⟩ := C29_factor_iff_posDef (getElem := fun i j => mat.get i j) (A := mat.mat) hm
    (fun i j hj hi => hmat.isMat.getij hi (by omega))
  refine ⟨b, m', h1, h2, ?_⟩
  rw [h3, lowerSym_of_symm]
  · rfl
  · intro i j hi hj
    exact congrFun (congrFun hsym ⟨j, hj⟩) ⟨i, hi⟩

/-! ## C30 -/

/-- **C30** after a successful factorisation `sqrt` returns an upper triangular `R` with positive diagonal
and `RᵀR = A`. -/
theorem C30_sqrt {m m' : LDLTMgr ℝ} {n : Nat} {getElem : Nat → Nat → Res ℝ} {A : Nat → Nat → ℝ}
    (hm : m.Ready n) (hA : ∀ i j, j ≤ i → i < n → getElem i j = .ok (A i j))
    (hf : m.factor getElem = .ok (true, m')) :
    ∃ r, m'.sqrt = .ok r ∧ r.IsMatShape n n ∧ (r.toMat n n)ᵀ * r.toMat n n = lowerSym n A ∧
      (∀ i j : Fin n, j < i → r.toMat n n i j = 0) ∧ (∀ i : Fin n, 0 < r.toMat n n i i) := by
  obtain ⟨b, m1, S, h1, hn, hS, hw, hh⟩ := LDLTMgr.factor_cases hm hA
  rw [h1] at hf
  injection hf with hf
  injection hf with hb hmm
  subst hmm
  rcases hh with ⟨_, hpos, h2, h3⟩ | ⟨hb', _⟩
  · obtain ⟨r, hr, hmr⟩ := LDLTMgr.sqrt_spec hn hS hpos
    refine ⟨r, hr, hmr.shape, ?_, ?_, ?_⟩
    · rw [lowerSym_eq, hmr.toMat]
      ext i j
      simp only [Matrix.mul_apply, Matrix.transpose_apply, Matrix.of_apply]
      rw [← LDLTMgr.sqrt_gram h2 h3 i.2 j.2, ← Finset.range_eq_Ico, Finset.sum_range]
    · intro i j hij
      have : (j : Nat) < i := hij
      rw [hmr.toMat, Matrix.of_apply, if_neg (by omega), if_neg (by omega)]
    · intro i
      rw [hmr.toMat]
      simpa using h3 i i.2
  · rw [hb'] at hb; simp at hb

/-- **C30** `sqrt` panics when the last factorisation failed -/
theorem C30_sqrt_panics {α : Type} [Scalar α] {m m' : LDLTMgr α} {getElem : Nat → Nat → Res α}
    (hf : m.factor getElem = .ok (false, m')) : m'.sqrt = .panic := by
  unfold LDLTMgr.factor at hf
  obtain ⟨⟨pos, st⟩, h1, h2⟩ := Res.bind_eq_ok.1 hf
  injection h2 with h2
  injection h2 with hb hm
  subst hm
  unfold LDLTMgr.sqrt
  rw [hb]; rfl

/-! ## C31 -/

/-- **C31** after a failed factorisation, `witness` returns `ep ≥ 0` and a vector `v` supported on the
nonempty range `pos.0 .. pos.1` with last entry 1 and `vᵀ A v = -ep`; `sym_quad F` is then `vᵀ F v`. -/
theorem C31_witness {m m' : LDLTMgr ℝ} {n : Nat} {getElem : Nat → Nat → Res ℝ} {A : Nat → Nat → ℝ}
    (hm : m.Ready n) (hA : ∀ i j, j ≤ i → i < n → getElem i j = .ok (A i j))
    (hf : m.factor getElem = .ok (false, m')) :
    ∃ ep m'', m'.witness = .ok (ep, m'') ∧ m''.Ready n ∧ 0 ≤ ep ∧ m''.pos = m'.pos ∧
      m''.pos.1 < m''.pos.2 ∧ m''.pos.2 ≤ n ∧ m''.wit.vec (m''.pos.2 - 1) = 1 ∧ m''.witVec n ≠ 0 ∧
      m''.witVec n ⬝ᵥ (lowerSym n A *ᵥ m''.witVec n) = - ep ∧
      ∀ F : Arr ℝ, F.IsMatShape n n → m''.symQuad F = .ok (m''.witVec n ⬝ᵥ (F.toMat n n *ᵥ m''.witVec n)) := by
  obtain ⟨b, m1, S, h1, hn, hS, hw, hh⟩ := LDLTMgr.factor_cases hm hA
  rw [h1] at hf
  injection hf with hf
  injection hf with hb hmm
  subst hmm
  rcases hh with ⟨hb', _⟩ | ⟨_, p, hp, hpos, h2, h3, h4⟩
  · rw [hb'] at hb; simp at hb
  · obtain ⟨m'', hw1, hr, hpp, hv1, hq, hsq⟩ := LDLTMgr.witness_cases hn hS (by rw [hw]; exact hm.2.2)
      (Nat.zero_le p) hp hpos h2 (fun a _ h => h3 a h)
    refine ⟨- S p p, m'', hw1, hr, by linarith, hpp, by rw [hpp, hpos]; simp, by rw [hpp, hpos]; exact hp,
      by rw [hpp, hpos]; exact hv1, ?_, by rw [hq]; ring, hsq⟩
    intro h0
    have hp0 := congrFun h0 ⟨p, hp⟩
    simp only [LDLTMgr.witVec, hpp, hpos, hv1, Pi.zero_apply] at hp0
    simp at hp0

/-- **C31** `witness` panics after a successful factorisation -/
theorem C31_witness_panics {α : Type} [Scalar α] {m m' : LDLTMgr α} {getElem : Nat → Nat → Res α}
    (hf : m.factor getElem = .ok (true, m')) : m'.witness = .panic := by
  unfold LDLTMgr.factor at hf
  obtain ⟨⟨pos, st⟩, h1, h2⟩ := Res.bind_eq_ok.1 hf
  injection h2 with h2
  injection h2 with hb hm
  subst hm
  unfold LDLTMgr.witness
  rw [hb]; rfl

/-! ## C32 -/

/-- **C32** (one direction) if `factor_with_allow_semidefinite` returns `false`, then `witness` gives a vector
with `vᵀ A v = -ep < 0`: the matrix is not positive semidefinite.  Missing: `true` does *not* imply positive
semidefiniteness, see `C32_true_does_not_imply_psd`. -/
theorem C32_false_witness_partial {m m' : LDLTMgr ℝ} {n : Nat} {getElem : Nat → Nat → Res ℝ}
    {A : Nat → Nat → ℝ} (hm : m.Ready n) (hA : ∀ i j, j ≤ i → i < n → getElem i j = .ok (A i j))
    (hf : m.factorSemi getElem = .ok (false, m')) :
    ¬ (lowerSym n A).PosSemidef ∧
    ∃ ep m'', m'.witness = .ok (ep, m'') ∧ m''.Ready n ∧ 0 < ep ∧
      m''.witVec n ⬝ᵥ (lowerSym n A *ᵥ m''.witVec n) = - ep ∧
      ∀ F : Arr ℝ, F.IsMatShape n n → m''.symQuad F = .ok (m''.witVec n ⬝ᵥ (F.toMat n n *ᵥ m''.witVec n)) := by
  obtain ⟨b, m1, S, h1, hn, hS, hw, hh⟩ := LDLTMgr.factorSemi_cases hm hA
  rw [h1] at hf
  injection hf with hf
  injection hf with hb hmm
  subst hmm
  rcases hh with ⟨hb', _⟩ | ⟨_, s, p, hsp, hp, hpos, h2, h3, h4⟩
  · rw [hb'] at hb; simp at hb
  · obtain ⟨m'', hw1, hr, hpp, hv1, hq, hsq⟩ := LDLTMgr.witness_cases hn hS (by rw [hw]; exact hm.2.2)
      hsp hp hpos h2 h3
    refine ⟨?_, - S p p, m'', hw1, hr, by linarith, by rw [hq]; ring, hsq⟩
    intro hpsd
    have := hpsd.dotProduct_mulVec_nonneg (m''.witVec n)
    simp only [star_trivial] at this
    linarith

/-- **C32** (same direction, as an acceptance guarantee) every positive semidefinite matrix is accepted. -/
theorem C32_psd_accepted_partial {m : LDLTMgr ℝ} {n : Nat} {getElem : Nat → Nat → Res ℝ}
    {A : Nat → Nat → ℝ} (hm : m.Ready n) (hA : ∀ i j, j ≤ i → i < n → getElem i j = .ok (A i j))
    (hpsd : (lowerSym n A).PosSemidef) : ∃ m', m.factorSemi getElem = .ok (true, m') ∧ m'.Ready n := by
  obtain ⟨b, m1, S, h1, hn, hS, hw, hh⟩ := LDLTMgr.factorSemi_cases hm hA
  cases b with
  | true => exact ⟨m1, h1, hn, hS.shape, by rw [hw]; exact hm.2.2⟩
  | false => exact absurd hpsd (C32_false_witness_partial hm hA h1).1

namespace LDLTMgr
theorem factorSemiLoop_zero_diag {getElem : Nat → Nat → Res ℝ} {A : Nat → Nat → ℝ} {n : Nat}
    (hA : ∀ i j, j ≤ i → i < n → getElem i j = .ok (A i j)) (hz : ∀ i, i < n → A i i = 0) (k : Nat) :
    ∀ (i : Nat) (st : Arr ℝ) (S : Nat → Nat → ℝ), i + k = n → IsMat st n n S →
      ∃ st', factorSemiLoop getElem n k i i st = .ok ((0, 0), st') := by
  induction k with
  | zero => intro i st S _ _; exact ⟨st, rfl⟩
  | succ k ih =>
    intro i st S hik hm
    obtain ⟨st1, S1, hr, hm1, -, h1, -⟩ := factorRow_spec (start := i) hm (by omega : i < n) (le_refl _)
      (fun j hj => hA i j hj (by omega))
    have h0 : S1 i i = 0 := by rw [h1 i (le_refl _) (le_refl _), hz i (by omega)]; simp
    obtain ⟨st', h'⟩ := ih (i + 1) st1 S1 (by omega) hm1
    refine ⟨st', ?_⟩
    unfold factorSemiLoop
    simp only [hr, Res.ok_bind, h0]
    simpa using h'
end LDLTMgr

/-- **C32 is false of the code** in every dimension: a matrix with zero diagonal is accepted whatever its
other entries are. -/
theorem C32_zero_diagonal_accepted {m : LDLTMgr ℝ} {n : Nat} {getElem : Nat → Nat → Res ℝ}
    {A : Nat → Nat → ℝ} (hm : m.Ready n) (hA : ∀ i j, j ≤ i → i < n → getElem i j = .ok (A i j))
    (hz : ∀ i, i < n → A i i = 0) : ∃ m', m.factorSemi getElem = .ok (true, m') := by
  obtain ⟨hn, hS, hw⟩ := hm
  obtain ⟨st', h⟩ := LDLTMgr.factorSemiLoop_zero_diag hA hz n 0 m.storage m.storage.mat (by omega) hS.isMat
  refine ⟨{ m with pos := (0, 0), storage := st' }, ?_⟩
  unfold LDLTMgr.factorSemi
  rw [hn, h]; rfl

/-- the matrix `[[0, 1], [1, 0]]` -/
def swap2 : Nat → Nat → ℝ := fun i j => if i = j then 0 else 1

/-- **C32 is false of the code**: `[[0, 1], [1, 0]]` is accepted although it is indefinite. -/
theorem C32_true_does_not_imply_psd :
    ∃ (A : Nat → Nat → ℝ) (m' : LDLTMgr ℝ),
      (LDLTMgr.new 2 : LDLTMgr ℝ).factorSemi (fun i j => .ok (A i j)) = .ok (true, m') ∧
      ¬ (lowerSym 2 A).PosSemidef := by
  obtain ⟨m', hm'⟩ := C32_zero_diagonal_accepted (getElem := fun i j => .ok (swap2 i j)) (A := swap2)
    (LDLTMgr.ready_new 2) (fun _ _ _ _ => rfl) (fun i _ => by simp [swap2])
  refine ⟨swap2, m', hm', fun h => ?_⟩
  have := h.dotProduct_mulVec_nonneg ![1, -1]
  simp [lowerSym, swap2, dotProduct, mulVec, Fin.sum_univ_two] at this
  norm_num at this

/-! ## The hypotheses are met -/

/-- the positive definite matrix `[[2, 1], [1, 2]]` -/
def pd2 : Nat → Nat → ℝ := fun i j => if i = j then 2 else 1

/-- the indefinite matrix `[[1, 2], [2, 1]]` -/
def ind2 : Nat → Nat → ℝ := fun i j => if i = j then 1 else 2

theorem pd2_posDef : (lowerSym 2 pd2).PosDef := by
  rw [posDef_iff_real]
  refine ⟨lowerSym_isSymm 2 pd2, fun x hx => ?_⟩
  have h01 : x 0 ≠ 0 ∨ x 1 ≠ 0 := by
    by_contra h
    push Not at h
    exact hx (by funext i; fin_cases i; exact h.1; exact h.2)
  have e : x ⬝ᵥ (lowerSym 2 pd2 *ᵥ x) = x 0 ^ 2 + x 1 ^ 2 + (x 0 + x 1) ^ 2 := by
    simp [lowerSym, pd2, dotProduct, mulVec, Fin.sum_univ_two]; ring
  rw [e]
  rcases h01 with h | h <;> positivity

theorem ind2_not_posDef : ¬ (lowerSym 2 ind2).PosDef := by
  intro h
  have := (posDef_iff_real.1 h).2 ![1, -1] (by intro h; simpa using congrFun h 0)
  simp [lowerSym, ind2, dotProduct, mulVec, Fin.sum_univ_two] at this

/-- C29/C30: a concrete matrix is accepted and has a square root -/
example : ∃ m' r, (LDLTMgr.new 2 : LDLTMgr ℝ).factor (fun i j => .ok (pd2 i j)) = .ok (true, m') ∧
    m'.sqrt = .ok r ∧ (r.toMat 2 2)ᵀ * r.toMat 2 2 = lowerSym 2 pd2 := by
  obtain ⟨b, m', h1, h2, h3⟩ := C29_factor_iff_posDef (getElem := fun i j => .ok (pd2 i j)) (A := pd2)
    (LDLTMgr.ready_new 2) (fun _ _ _ _ => rfl)
  have hb := h3.2 pd2_posDef
  subst hb
  obtain ⟨r, hr, _, hg, _⟩ := C30_sqrt (LDLTMgr.ready_new 2) (fun _ _ _ _ => rfl) h1
  exact ⟨m', r, h1, hr, hg⟩

/-- C31: a concrete matrix is rejected with a witness -/
example : ∃ m' ep m'', (LDLTMgr.new 2 : LDLTMgr ℝ).factor (fun i j => .ok (ind2 i j)) = .ok (false, m') ∧
    m'.witness = .ok (ep, m'') ∧ m''.witVec 2 ⬝ᵥ (lowerSym 2 ind2 *ᵥ m''.witVec 2) = - ep ∧ 0 ≤ ep := by
  obtain ⟨b, m', h1, h2, h3⟩ := C29_factor_iff_posDef (getElem := fun i j => .ok (ind2 i j)) (A := ind2)
    (LDLTMgr.ready_new 2) (fun _ _ _ _ => rfl)
  have hb : b = false := by
    cases b with
    | false => rfl
    | true => exact absurd (h3.1 rfl) ind2_not_posDef
  subst hb
  obtain ⟨ep, m'', hw, _, he, _, _, _, _, _, hq, _⟩ := C31_witness (LDLTMgr.ready_new 2) (fun _ _ _ _ => rfl) h1
  exact ⟨m', ep, m'', h1, hw, hq, he⟩

/-- C32: a concrete matrix is rejected by the semidefinite variant -/
example : ∃ m', (LDLTMgr.new 2 : LDLTMgr ℝ).factorSemi (fun i j => .ok (ind2 i j)) = .ok (false, m') := by
  have hA : ∀ i j : Nat, j ≤ i → i < 2 → (fun i j => (.ok (ind2 i j) : Res ℝ)) i j = .ok (ind2 i j) :=
    fun _ _ _ _ => rfl
  obtain ⟨st1, S1, hr1, hm1, -, h1, -⟩ := LDLTMgr.factorRow_spec
    (getElem := fun i j => .ok (ind2 i j)) (A := ind2) (start := 0) (i := 0)
    (isMat_zeros 2 2) (by norm_num) (le_refl _) (fun j hj => hA 0 j hj (by norm_num))
  obtain ⟨st2, S2, hr2, hm2, h3, h4, h5⟩ := LDLTMgr.factorRow_spec
    (getElem := fun i j => .ok (ind2 i j)) (A := ind2) (start := 0) (i := 1)
    hm1 (by norm_num) (by norm_num) (fun j hj => hA 1 j hj (by norm_num))
  have e1 : S1 0 0 = 1 := by rw [h1 0 (le_refl _) (le_refl _)]; simp [ind2]
  have e2 : S2 0 0 = 1 := by rw [h3 0 0 (by norm_num) (by norm_num), e1]
  have e3 : S2 0 1 = 2 := by rw [h4 0 (le_refl _) (by norm_num)]; simp [ind2]
  have e4 : S2 1 0 = 2 := by rw [h5 0 (le_refl _) (by norm_num), e3, e2]; norm_num
  have e5 : S2 1 1 = -3 := by
    rw [h4 1 (by norm_num) (le_refl _)]
    rw [show Finset.Ico 0 1 = {0} by rfl, Finset.sum_singleton, e4, e3]
    simp [ind2]; norm_num
  refine ⟨⟨(0, 2), Arr.new 2, 2, st2⟩, ?_⟩
  unfold LDLTMgr.factorSemi
  simp only [LDLTMgr.new, LDLTMgr.factorSemiLoop, hr1, hr2, Res.ok_bind, e1, e5]
  simp only [LDLTMgr.isSpd]
  simp
  rw [if_neg (not_lt.2 zero_le_one)]
  rfl

end Ellalgo

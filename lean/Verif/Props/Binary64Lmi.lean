import Verif.Lib.Lmi64
import Verif.Props.Binary64Run

/-! # C124: the LMI oracles in IEEE-754 `f64` -/

namespace Ellalgo
open Matrix
variable {n d : Nat}

/-- **C124** (LMI oracle)  On a query whose operations stay in range (no overflow, no underflow of a product or quotient), `LMIOracle` in
IEEE-754 `f64` answers as it does in arithmetic rounded to 53 bits: it accepts the same points, its cuts have the same gradient and offset,
and it is left ready for the next query.  The state that earlier queries left in the factorisation's storage does not matter. -/
theorem C124_lmi_oracle : SameFeas (LMIOracle.oracle (α := B64)) (LMIOracle.oracle (α := Fl bin53)) (LMIOracle.Same64 d n)
    (fun o x => x.IsVecShape d ∧ o.Safe n d x) := by
  rintro o o' x x' ho hx ⟨hxs, ok⟩
  have hxs0 := hx.vecShape hxs
  have hxl : x.len = d := hxs0.isVec.len'
  have hxl' : x'.len = d := hxs.isVec.len'
  have hB := ho.matB.matShape ho.shape
  have hl : d ≤ o.matF.length := by rw [ho.mats.same.length_eq, ho.mats.length]
  have hl' : d ≤ o'.matF.length := by rw [ho.mats.length]
  obtain ⟨S, hS⟩ := ldlEnd (getElem := o.elem x) ho.mgr (A := fun i j => subTo (o.matB.mat i j) (fun k => fEntry o.matF k i j * x.vec k) d)
    fun i j hj hi => by
      rw [LMIOracle.elem_generic ho.mats.shapes hB (by rw [hxl]; exact hl) hi (by omega), hxl]
  obtain ⟨S', hS'⟩ := ldlEnd (getElem := o'.elem x') ho.mgr'
    (A := fun i j => subTo (o'.matB.mat i j) (fun k => fEntry o'.matF k i j * x'.vec k) d)
    fun i j hj hi => by
      rw [LMIOracle.elem_generic ho.mats.shape ho.shape (by rw [hxl']; exact hl') hi (by omega), hxl']
  show Res.Rel _ (o.assess x) (o'.assess x')
  unfold LMIOracle.assess
  rcases end_same (F := fEntry o.matF) ok (fun i j hj hi hE => (ho.matB.mat ho.shape i j hi (by omega)).subTo (fun k hk => by
      obtain ⟨_, _, _, _, _, h6⟩ := ho.mats.entry hk
      exact (h6 i hi j (by omega)).mul (hx.vec hxs k hk) (hE k hk).1) fun k hk => (hE k hk).2) hS hS' with
    ⟨k, k', h1, h2, h3, h4⟩ | ⟨k1, k1', k2, k2', ep, ep', h1, h1', hw, hw', hs, hs', hep, hq⟩
  · rw [h1, h3]
    exact ⟨trivial, ho.mats, ho.matB, ho.shape, h2, h4⟩
  · have hq' : ∀ k, ∃ (r : B64) (r' : Fl bin53), k < d → (nthMat o.matF k >>= fun f => k2.symQuad f) = .ok r ∧
        (nthMat o'.matF k >>= fun f => k2'.symQuad f) = .ok r' ∧ Same r r' := by
      intro k
      by_cases hk : k < d
      · obtain ⟨g1, g2, g3, g4, g5, g6⟩ := ho.mats.entry hk
        obtain ⟨r, r', e1, e2, e3⟩ := hq k hk _ _ (g4.isMat.congr fun i j _ _ => (fEntry_eq g1).symm)
          (g5.isMat.congr fun i j _ _ => (fEntry_eq g2).symm) g6
        refine ⟨r, r', fun _ => ⟨?_, ?_, e3⟩⟩
        · rw [(nthMat_ok ho.mats.shapes g1).1]; exact e1
        · rw [(nthMat_ok ho.mats.shape g2).1]; exact e2
      · exact ⟨0, 0, fun h => absurd h hk⟩
    choose q q' hqq using hq'
    obtain ⟨g, g', hg, hg', hgs⟩ := grad_same (d := d) (q := q) (q' := q')
      (f := fun k g => do
        let f ← nthMat o.matF k
        let v ← k2.symQuad f
        g.setIdx k v)
      (f' := fun k g => do
        let f ← nthMat o'.matF k
        let v ← k2'.symQuad f
        g.setIdx k v)
      (fun k g hk => by
        obtain ⟨G, e1, e2⟩ := Res.bind_eq_ok.1 (hqq k hk).1
        simp only [e1, Res.ok_bind, e2])
      (fun k g hk => by
        obtain ⟨G, e1, e2⟩ := Res.bind_eq_ok.1 (hqq k hk).2.1
        simp only [e1, Res.ok_bind, e2]) fun k hk => (hqq k hk).2.2
    have e1 : lmiGrad k2 o.matF x.len = .ok g := by unfold lmiGrad; rw [hxl]; exact hg
    have e2 : lmiGrad k2' o'.matF x'.len = .ok g' := by unfold lmiGrad; rw [hxl']; exact hg'
    rw [h1, h1']
    simp only [Res.ok_bind, Bool.false_eq_true, if_false, hw, hw', e1, e2]
    exact ⟨⟨hgs, hep⟩, ho.mats, ho.matB, ho.shape, hs, hs'⟩

/-- **C124** (eager LMI oracle)  The same of `LMIOldOracle`, which builds the matrix before factoring it. -/
theorem C124_lmi_old_oracle : SameFeas (LMIOracle.oracleOld (α := B64)) (LMIOracle.oracleOld (α := Fl bin53)) (LMIOracle.Same64 d n)
    (fun o x => x.IsVecShape d ∧ o.Safe n d x) := by
  rintro o o' x x' ho hx ⟨hxs, ok⟩
  have h := C124_lmi_oracle o o' x x' ho hx ⟨hxs, ok⟩
  show Res.Rel _ (o.assessOld x) (o'.assessOld x')
  rw [LMIOracle.assessOld_eq ho.mats.shapes (ho.matB.matShape ho.shape) ho.mgr.1
      (by rw [(hx.vecShape hxs).isVec.len', ho.mats.same.length_eq, ho.mats.length]),
    LMIOracle.assessOld_eq ho.mats.shape ho.shape ho.mgr'.1 (by rw [hxs.isVec.len', ho.mats.length])]
  exact h

/-- **C124** (homogeneous LMI oracle)  The same of `LMI0Oracle`. -/
theorem C124_lmi0_oracle {o : LMI0Oracle B64} {o' : LMI0Oracle (Fl bin53)} {x : Arr B64} {x' : Arr (Fl bin53)} (ho : LMI0Oracle.Same64 d n o o')
    (hx : x.Same x') (hxs : x'.IsVecShape d) (ok : o'.Safe n d x') :
    Res.Rel (fun p q => OptRel (fun c c' => c.1.Same c'.1 ∧ Same c.2 c'.2) p.1 q.1 ∧ LMI0Oracle.Same64 d n p.2 q.2)
      (o.assess x) (o'.assess x') := by
  have hxs0 := hx.vecShape hxs
  have hxl : x.len = d := hxs0.isVec.len'
  have hxl' : x'.len = d := hxs.isVec.len'
  obtain ⟨S, hS⟩ := ldlEnd (getElem := o.elem x) ho.mgr (A := fun i j => sumTo d fun k => fEntry o.matF k i j * x.vec k)
    fun i j hj hi => by
      unfold LMI0Oracle.elem
      rw [hxl]
      apply forRange_sum
      intro k acc hk
      obtain ⟨g1, g2, g3, g4, g5, g6⟩ := ho.mats.entry hk
      rw [(nthMat_ok ho.mats.shapes g1).1]
      simp only [Res.ok_bind]
      rw [g4.isMat.getij hi (by omega), hxs0.isVec.idx hk, fEntry_eq g1]
      rfl
  obtain ⟨S', hS'⟩ := ldlEnd (getElem := o'.elem x') ho.mgr' (A := fun i j => sumTo d fun k => fEntry o'.matF k i j * x'.vec k)
    fun i j hj hi => by
      unfold LMI0Oracle.elem
      rw [hxl']
      apply forRange_sum
      intro k acc hk
      obtain ⟨g1, g2, g3, g4, g5, g6⟩ := ho.mats.entry hk
      rw [(nthMat_ok ho.mats.shape g2).1]
      simp only [Res.ok_bind]
      rw [g5.isMat.getij hi (by omega), hxs.isVec.idx hk, fEntry_eq g2]
      rfl
  unfold LMI0Oracle.assess
  rcases end_same (F := fEntry o.matF) ok (fun i j hj hi hE => Same.sumTo (fun k hk => by
      obtain ⟨_, _, _, _, _, h6⟩ := ho.mats.entry hk
      exact (h6 i hi j (by omega)).mul (hx.vec hxs k hk) (hE.1 k hk)) hE.2) hS hS' with
    ⟨k, k', h1, h2, h3, h4⟩ | ⟨k1, k1', k2, k2', ep, ep', h1, h1', hw, hw', hs, hs', hep, hq⟩
  · rw [h1, h3]
    exact ⟨trivial, ho.mats, h2, h4⟩
  · have hq' : ∀ k, ∃ (r : B64) (r' : Fl bin53), k < d → (nthMat o.matF k >>= fun f => k2.symQuad f) = .ok r ∧
        (nthMat o'.matF k >>= fun f => k2'.symQuad f) = .ok r' ∧ Same r r' := by
      intro k
      by_cases hk : k < d
      · obtain ⟨g1, g2, g3, g4, g5, g6⟩ := ho.mats.entry hk
        obtain ⟨r, r', e1, e2, e3⟩ := hq k hk _ _ (g4.isMat.congr fun i j _ _ => (fEntry_eq g1).symm)
          (g5.isMat.congr fun i j _ _ => (fEntry_eq g2).symm) g6
        refine ⟨r, r', fun _ => ⟨?_, ?_, e3⟩⟩
        · rw [(nthMat_ok ho.mats.shapes g1).1]; exact e1
        · rw [(nthMat_ok ho.mats.shape g2).1]; exact e2
      · exact ⟨0, 0, fun h => absurd h hk⟩
    choose q q' hqq using hq'
    obtain ⟨g, g', hg, hg', hgs⟩ := grad_same (d := d) (q := fun k => -q k) (q' := fun k => -q' k)
      (f := fun k g => do
        let f ← nthMat o.matF k
        let v ← k2.symQuad f
        g.setIdx k (-v))
      (f' := fun k g => do
        let f ← nthMat o'.matF k
        let v ← k2'.symQuad f
        g.setIdx k (-v))
      (fun k g hk => by
        obtain ⟨G, e1, e2⟩ := Res.bind_eq_ok.1 (hqq k hk).1
        simp only [e1, Res.ok_bind, e2])
      (fun k g hk => by
        obtain ⟨G, e1, e2⟩ := Res.bind_eq_ok.1 (hqq k hk).2.1
        simp only [e1, Res.ok_bind, e2]) fun k hk => (hqq k hk).2.2.neg
    have e1 : lmi0Grad k2 o.matF x.len = .ok g := by unfold lmi0Grad; rw [hxl]; exact hg
    have e2 : lmi0Grad k2' o'.matF x'.len = .ok g' := by unfold lmi0Grad; rw [hxl']; exact hg'
    rw [h1, h1']
    simp only [Res.ok_bind, Bool.false_eq_true, if_false, hw, hw', e1, e2]
    exact ⟨⟨hgs, hep⟩, ho.mats, hs, hs'⟩

theorem mat64_eq {a : Arr B64} {a' : Arr (Fl bin53)} (h : a.Same a') (hs : a'.IsMatShape n n) : a.mat64 n = a'.flMat n := by
  ext i j
  exact (h.mat hs i j i.2 j.2).2

theorem vec64_eq {a : Arr B64} {a' : Arr (Fl bin53)} (h : a.Same a') (hs : a'.IsVecShape n) : a.vec64 n = a'.flVec n := by
  ext i
  exact (h.vec hs i i.2).2

theorem flMatAt_64 {fs : List (Arr B64)} {fs' : List (Arr (Fl bin53))} (h : SameMats d n fs fs') {k : Nat} (hk : k < d) :
    (fs.getD k (Arr.new 0)).mat64 n = flMatAt n fs' k := by
  obtain ⟨g1, g2, g3, g4, g5, g6⟩ := h.entry hk
  unfold flMatAt
  rw [show fs.getD k (Arr.new 0) = fs[k] by simp [List.getD, g1], show fs'.getD k (Arr.new 0) = fs'[k] by simp [List.getD, g2]]
  exact mat64_eq g3 g5

/-- **C124** (runs)  `cutting_plane_feas` in IEEE-754 `f64` with an LMI oracle for `d` symmetric `n × n` matrices and an ellipsoid, whose
steps stay in range: a point it returns is made of finite numbers and satisfies the matrix inequality up to the margin
`4 n (n + d + 1) 2⁻⁵³ s`, where `s` bounds the sizes `|B_ij| + Σ_k |x_k (F_k)_ij|`. -/
theorem C124_lmi_run {o o1 : LMIOracle B64} {o' : LMIOracle (Fl bin53)} (ho : LMIOracle.Same64 d n o o')
    (hsym : ∀ f ∈ o.matF, (f.mat64 n).IsSymm) (hbs : (o.matB.mat64 n).IsSymm) (hd : 0 < d) (hsz : n + d + 1 ≤ 2 ^ 49)
    {e e1 : Ell B64} {e' : Ell (Fl bin53)} (he : e.Same64 e') (hsh : e'.Shaped d) {opts : Options B64} {opts' : Options (Fl bin53)}
    (ht : Same opts.tolerance opts'.tolerance) (hi : opts.maxIters = opts'.maxIters)
    (ok : FeasSafe LMIOracle.oracle d (fun o x => x.IsVecShape d ∧ o.Safe n d x) opts'.tolerance opts'.maxIters o' e')
    {x : Arr B64} {k : Nat} (h : cuttingPlaneFeas LMIOracle.oracle Ell.space o e opts = .ok ((some x, k), o1, e1))
    (hx : x.IsVecShape d) {s : ℝ} (hs : ∀ i j, lmiSize64 d n o.matF o.matB x i j ≤ s) :
    (∀ y ∈ x.data, y.Finite) ∧
    (lmiMat64 d n o.matF o.matB x + (4 * n * (n + d + 1 : Nat) * (2 : ℝ) ^ (-53 : ℤ) * s) • (1 : Matrix (Fin n) (Fin n) ℝ)).PosDef := by
  have hr := C109_feas LMIOracle.oracle LMIOracle.oracle (LMIOracle.Same64 d n) _ C124_lmi_oracle opts opts' ht hi hd o o' e e' ho he hsh ok
  rw [h] at hr
  cases h2 : cuttingPlaneFeas LMIOracle.oracle Ell.space o' e' opts' with
  | panic => rw [h2] at hr; exact hr.elim
  | ok q =>
    rw [h2] at hr
    obtain ⟨⟨x0, k'⟩, o1', e1'⟩ := q
    obtain ⟨hxx, hk, -, -⟩ := hr
    cases x0 with
    | none => exact hxx.elim
    | some x' =>
      have hxs : x.Same x' := hxx
      have hx' : x'.IsVecShape d := ⟨hxs.rows.symm.trans hx.1, hxs.cols.symm.trans hx.2.1, hxs.data.length_eq.symm.trans hx.2.2⟩
      have eB := mat64_eq ho.matB ho.shape
      have ex := vec64_eq hxs hx'
      have hF : FlSymMats d n o'.matF := ⟨ho.mats.length, fun f hf => ⟨ho.mats.shape f hf, by
        obtain ⟨k, hk, rfl⟩ := List.getElem_of_mem hf
        obtain ⟨g1, g2, g3, g4, g5, g6⟩ := ho.mats.entry (k := k) (by rw [← ho.mats.length]; exact hk)
        rw [← mat64_eq g3 g5]
        exact hsym _ (List.getElem_mem g1)⟩⟩
      have hsize : ∀ i j, lmiSize64 d n o.matF o.matB x i j = |o'.matB.flMat n i j| + flLinSize n o'.matF (x'.flVec d) i j := by
        intro i j
        unfold lmiSize64 flLinSize
        rw [eB, ex]
        congr 1
        exact Finset.sum_congr rfl fun k _ => by rw [flMatAt_64 ho.mats k.2]
      have hmat : lmiMat64 d n o.matF o.matB x = flLmiMat n o'.matF o'.matB (x'.flVec d) := by
        unfold lmiMat64 flLmiMat flLinMat
        rw [eB, ex]
        congr 1
        exact Finset.sum_congr rfl fun k _ => by rw [flMatAt_64 ho.mats k.2]
      refine ⟨fun y hy => ?_, ?_⟩
      · obtain ⟨i, hi, rfl⟩ := List.getElem_of_mem hy
        have hl := hxs.data.length_eq
        exact (hxs.data.get hi (by omega)).1
      · rw [hmat]
        refine C82_lmi_run Ell.space hF ho.shape (by rw [← eB]; exact hbs) rfl rfl ho.mgr' ?_ e' e1' opts' x' k' h2 hx' fun i j => by
          rw [← hsize]; exact hs i j
        have h3 : ((n + d + 1 : Nat) : ℝ) ≤ (2 : ℝ) ^ 49 := by exact_mod_cast hsz
        have h4 : (2 : ℝ) ^ (-53 : ℤ) = 1 / 2 ^ 53 := by norm_num
        rw [h4, mul_one_div, mul_div_assoc', div_le_one (by positivity)]
        calc (16 : ℝ) * ((n + d + 1 : Nat) : ℝ) ≤ 16 * 2 ^ 49 := by linarith
          _ = 2 ^ 53 := by norm_num

end Ellalgo

import Verif.Spec.Lmi64
import Verif.Props.Binary64Lmi
import Verif.Props.Portfolio64

/-! # C133: the LMI oracles in any arithmetic and in IEEE `f64` -/

namespace Ellalgo
open Matrix
variable {n d : Nat}

section generic
variable {α : Type} [Scalar α] {A S S' : Nat → Nat → α} {q : Nat}

theorem LdlTable.blk (h : LdlTable A S q) : LDLTMgr.BlkG A S q := by
  refine fun a ha => ⟨fun b hb => ?_, h.lower a ha⟩
  unfold LDLTMgr.entryG
  split
  · next h0 => subst h0; exact h.first a ha
  · next h0 => exact h.upper a ha b hb (Nat.pos_of_ne_zero h0)

theorem LdlTable.of_blk (h : LDLTMgr.BlkG A S q) : LdlTable A S q where
  first a ha := by rw [(h a ha).1 0 (Nat.zero_le _)]; simp [LDLTMgr.entryG]
  upper a ha b hb h0 := by rw [(h a ha).1 b hb, LDLTMgr.entryG, if_neg (by omega)]
  lower a ha := (h a ha).2

/-- the matrix determines the table -/
theorem LdlTable.unique (h : LdlTable A S q) (h' : LdlTable A S' q) :
    ∀ a < q, ∀ b ≤ a, S b a = S' b a ∧ (b < a → S a b = S' a b) := by
  intro a
  induction a using Nat.strong_induction_on with
  | _ a iha =>
    intro ha b
    induction b using Nat.strong_induction_on with
    | _ b ihb =>
      intro hb
      have hu : S b a = S' b a := by
        rcases Nat.eq_zero_or_pos b with rfl | h0
        · rw [h.first a ha, h'.first a ha]
        · rw [h.upper a ha b hb h0, h'.upper a ha b hb h0]
          congr 1
          refine sumTo_congr fun k hk => ?_
          rw [(ihb k hk (by omega)).2 (by omega)]
          rcases hb.lt_or_eq with hlt | rfl
          · rw [(iha b hlt (by omega) k (by omega)).1]
          · rw [(ihb k hk (by omega)).1]
      refine ⟨hu, fun hlt => ?_⟩
      rw [h.lower a ha b hlt, h'.lower a ha b hlt, hu, (iha b hlt (by omega) b le_rfl).1]

theorem LdlStops.not_passes {p : Nat} {v : Nat → α} (h : LdlStops A n p S v) : ¬ LdlPasses A n := by
  rintro ⟨S', h1, h2⟩
  have hr := h.row
  have e := (h.table.unique (S' := S') ⟨fun a ha => h1.first a (by omega), fun a ha => h1.upper a (by omega), fun a ha => h1.lower a (by omega)⟩
    p (by omega) p le_rfl).1
  have := h.stop
  rw [e, h2 p h.row] at this
  cases this

/-- **C133** (one answer, any arithmetic)  Whatever the arithmetic, NaN and infinities included, a query of `LMIOracle` or `LMIOldOracle` never
panics, whatever earlier queries left behind, and leaves its matrices unchanged.  It accepts the point exactly if factoring the computed
`B - Σ x_k F_k` meets no pivot that compares as `≤ 0`; otherwise the cut is made of the first such pivot, negated, and of the computed quadratic
forms of the `F_k` at the vector of the back substitution.  The two oracles give the same answers. -/
theorem C133_lmi_query {o : LMIOracle α} (ho : o.ForSize d n) {x : Arr α} (hx : x.IsVecShape d) :
    ∃ r o', LMIOracle.oracle.assess o x = .ok (r, o') ∧ LMIOracle.oracleOld.assess o x = .ok (r, o') ∧ o'.ForSize d n ∧ o.SameMatrices o' ∧
      (r = none ↔ LdlPasses (o.entryOf d x) n) ∧
      ∀ g b, r = some (g, ⟨b⟩) → g.IsVecShape d ∧ ∃ p S v, LdlStops (o.entryOf d x) n p S v ∧ b = -S p p ∧
        ∀ k < d, g.vec k = quadTo (p + 1) v (fEntry o.matF k) (p + 1) := by
  have hxl : x.len = d := hx.isVec.len'
  have hl : d ≤ o.matF.length := ho.count.ge
  have hold : o.assessOld x = o.assess x := LMIOracle.assessOld_eq ho.mats ho.matB ho.mgr.1 (by rw [hxl]; exact hl)
  obtain ⟨S, hS⟩ := ldlEnd (getElem := o.elem x) ho.mgr (A := o.entryOf d x) fun i j hj hi => by
    rw [LMIOracle.elem_generic ho.mats ho.matB (by rw [hxl]; exact hl) hi (by omega), hxl]; rfl
  cases hS with
  | pass m' h hs hB hp =>
    have e : o.assess x = .ok (none, { o with mgr := m' }) := by
      unfold LMIOracle.assess
      rw [h]; rfl
    refine ⟨none, { o with mgr := m' }, e, hold.trans e, ⟨ho.mats, ho.count, ho.matB, hs⟩, ⟨rfl, rfl⟩, ⟨fun _ => ⟨S, .of_blk hB, hp⟩, fun _ => rfl⟩, by simp⟩
  | fail p v m1 m2 h hw hs hpn hB hp hpp hv hq =>
    obtain ⟨g, hg, hgv⟩ := forRange_fill d (fun k => quadTo (p + 1) v (fEntry o.matF k) (p + 1)) (fun k g => do
        let f ← nthMat o.matF k
        let v ← m2.symQuad f
        g.setIdx k v) (by
      intro k a hk
      obtain ⟨e1, e2⟩ := nthMat_ok ho.mats (k := k) (by omega)
      rw [e1]
      simp only [Res.ok_bind]
      rw [hq _ _ (e2.congr fun i j _ _ => (fEntry_eq (by omega : k < o.matF.length)).symm)]
      rfl)
    have e1 : lmiGrad m2 o.matF x.len = .ok g := by unfold lmiGrad; rw [hxl]; exact hg
    have e : o.assess x = .ok (some (g, ⟨-S p p⟩), { o with mgr := m2 }) := by
      unfold LMIOracle.assess
      rw [h]
      simp only [Res.ok_bind, Bool.false_eq_true, if_false, hw, e1]
    have hst : LdlStops (o.entryOf d x) n p S v := ⟨hpn, .of_blk hB, hp, hpp, hv⟩
    refine ⟨some (g, ⟨-S p p⟩), { o with mgr := m2 }, e, hold.trans e, ⟨ho.mats, ho.count, ho.matB, hs⟩, ⟨rfl, rfl⟩,
      ⟨by simp, fun hc => absurd hc hst.not_passes⟩, ?_⟩
    intro g' b hr
    simp only [Option.some.injEq, Prod.mk.injEq, SingleCut.mk.injEq] at hr
    obtain ⟨rfl, rfl⟩ := hr
    exact ⟨hgv.shape, p, S, v, hst, rfl, fun k hk => hgv.vec hk⟩

/-- **C133** (runs, any arithmetic)  `cutting_plane_feas` with either LMI oracle, over any search space that keeps its dimension, ends without a panic;
at a returned point factoring the computed `B - Σ x_k F_k` meets no pivot that compares as `≤ 0`. -/
theorem C133_lmi_run {T : Type} {sp : Space T (Arr α) (SingleCut α) α} {Q : T → Prop} (hsp : sp.Steady d Q) {o : LMIOracle α}
    (ho : o.ForSize d n) {s : T} (hs : Q s) (opts : Options α) (orc : OracleFeas (LMIOracle α) (Arr α) (SingleCut α) α)
    (horc : orc = LMIOracle.oracle ∨ orc = LMIOracle.oracleOld) :
    ∃ r k o' s', cuttingPlaneFeas orc sp o s opts = .ok ((r, k), o', s') ∧
      ∀ x, r = some x → x.IsVecShape d ∧ LdlPasses (o.entryOf d x) n := by
  have query : ∀ (w : LMIOracle α) (x : Arr α), w.ForSize d n ∧ o.SameMatrices w → x.IsVecShape d →
      ∃ r w', orc.assess w x = .ok (r, w') ∧ (w'.ForSize d n ∧ o.SameMatrices w') ∧ (∀ c, r = some c → c.1.IsVecShape d) ∧
        (r = none → LdlPasses (o.entryOf d x) n) := by
    rintro w x ⟨hw, hsw⟩ hx
    obtain ⟨r, w', h1, h2, h3, h4, h5, h6⟩ := C133_lmi_query hw hx
    refine ⟨r, w', ?_, ⟨h3, h4.1.trans hsw.1, h4.2.trans hsw.2⟩, ?_, ?_⟩
    · rcases horc with rfl | rfl
      · exact h1
      · exact h2
    · rintro ⟨g, ⟨b⟩⟩ hc
      exact (h6 g b hc).1
    · intro h
      have := h5.1 h
      unfold LMIOracle.entryOf at this ⊢
      rwa [hsw.1, hsw.2] at this
  obtain ⟨r, k, o', s', h1, h2⟩ := feas_accepted hsp (I := fun w => w.ForSize d n ∧ o.SameMatrices w) (orc := orc) (w := o) (s := s) (by
    intro w x hw hx
    obtain ⟨r, w', h1, h2, h3, -⟩ := query w x hw hx
    exact ⟨r, w', h1, h2, h3⟩) opts ⟨ho, rfl, rfl⟩ hs
  refine ⟨r, k, o', s', h1, fun x hx => ?_⟩
  obtain ⟨hxs, w1, hw1, hq⟩ := h2 x hx
  obtain ⟨r', w', e1, -, -, e2⟩ := query w1 x hw1 hxs
  rw [hq] at e1
  simp only [Res.ok.injEq, Prod.mk.injEq] at e1
  exact ⟨hxs, e2 e1.1.symm⟩

end generic

/-- **C133** (what acceptance means)  If factoring the computed `B - Σ x_k F_k` in `f64` meets no pivot that compares as `≤ 0`, and does so in the
range of `f64`, with symmetric matrices, then the true matrix is positive definite up to the margin `4 n (n + d + 1) 2⁻⁵³ s`, where `s` bounds
the sizes `|B_ij| + Σ_k |x_k (F_k)_ij|`. -/
theorem C133_lmi_meaning {o : LMIOracle B64} {o' : LMIOracle (Fl bin53)} (ho : LMIOracle.Same64 d n o o')
    (hsym : ∀ f ∈ o.matF, (f.mat64 n).IsSymm) (hbs : (o.matB.mat64 n).IsSymm) (hsz : n + d + 1 ≤ 2 ^ 49)
    {x : Arr B64} {x' : Arr (Fl bin53)} (hxs : x.Same x') (hx : x.IsVecShape d) (hsafe : o'.Safe n d x') (hp : LdlPasses (o.entryOf d x) n)
    {s : ℝ} (hs : ∀ i j, lmiSize64 d n o.matF o.matB x i j ≤ s) :
    (lmiMat64 d n o.matF o.matB x + (4 * n * (n + d + 1 : Nat) * (2 : ℝ) ^ (-53 : ℤ) * s) • (1 : Matrix (Fin n) (Fin n) ℝ)).PosDef := by
  have hx' : x'.IsVecShape d := ⟨hxs.rows.symm.trans hx.1, hxs.cols.symm.trans hx.2.1, hxs.data.length_eq.symm.trans hx.2.2⟩
  have hfor : o.ForSize d n := ⟨ho.mats.shapes, by rw [ho.mats.same.length_eq, ho.mats.length], ho.matB.matShape ho.shape, ho.mgr⟩
  obtain ⟨r, o1, h1, -, -, -, h2, -⟩ := C133_lmi_query hfor hx
  have hr := h2.2 hp
  have hrel := C124_lmi_oracle o o' x x' ho hxs ⟨hx', hsafe⟩
  rw [h1, hr] at hrel
  cases h3 : LMIOracle.oracle.assess o' x' with
  | panic => rw [h3] at hrel; exact hrel.elim
  | ok q =>
    obtain ⟨r', o2⟩ := q
    rw [h3] at hrel
    have hn : r' = none := by
      have := hrel.1
      cases r' with
      | none => rfl
      | some _ => exact this.elim
    subst hn
    have eB := mat64_eq ho.matB ho.shape
    have ex := vec64_eq hxs hx'
    have hF : FlSymMats d n o'.matF := ⟨ho.mats.length, fun f hf => ⟨ho.mats.shape f hf, by
      obtain ⟨k, hk, rfl⟩ := List.getElem_of_mem hf
      obtain ⟨g1, g2, g3, g4, g5, g6⟩ := ho.mats.entry (k := k) (by rw [← ho.mats.length]; exact hk)
      rw [← mat64_eq g3 g5]
      exact hsym _ (List.getElem_mem g1)⟩⟩
    have hsize : ∀ i j, lmiSize64 d n o.matF o.matB x i j = |o'.matB.flMat n i j| + flLinSize n o'.matF (x'.flVec d) i j := by
      intro i j
      unfold lmiSize64 flLinSize
      rw [eB, ex]
      congr 1
      exact Finset.sum_congr rfl fun k _ => by rw [flMatAt_64 ho.mats k.2]
    have hmat : lmiMat64 d n o.matF o.matB x = flLmiMat n o'.matF o'.matB (x'.flVec d) := by
      unfold lmiMat64 flLmiMat flLinMat
      rw [eB, ex]
      congr 1
      exact Finset.sum_congr rfl fun k _ => by rw [flMatAt_64 ho.mats k.2]
    rw [hmat]
    refine (C82_lmi_rounded hF ho.shape (by rw [← eB]; exact hbs) rfl rfl ⟨ho.mgr'.1, ho.mgr'.2.1⟩ hx' ?_ fun i j => by
      rw [← hsize]; exact hs i j).1 _ h3
    have h3 : ((n + d + 1 : Nat) : ℝ) ≤ (2 : ℝ) ^ 49 := by exact_mod_cast hsz
    have h4 : (2 : ℝ) ^ (-53 : ℤ) = 1 / 2 ^ 53 := by norm_num
    rw [h4, mul_one_div, mul_div_assoc', div_le_one (by positivity)]
    calc (16 : ℝ) * ((n + d + 1 : Nat) : ℝ) ≤ 16 * 2 ^ 49 := by linarith
      _ = 2 ^ 53 := by norm_num

end Ellalgo

import Verif.Spec.Lmi064
import Verif.Props.Lmi64

/-! # C133: the homogeneous LMI oracle in any arithmetic and in IEEE `f64` -/

namespace Ellalgo
open Matrix
variable {n d : Nat}

/-- **C133** (homogeneous oracle, any arithmetic)  Whatever the arithmetic, NaN and infinities included, a query of `LMI0Oracle` never panics,
whatever earlier queries left behind, and leaves its matrices unchanged.  It accepts the point exactly if factoring the computed `Σ x_k F_k` meets
no pivot that compares as `≤ 0`; otherwise the cut is made of the first such pivot, negated, and of the negated computed quadratic forms of the
`F_k` at the vector of the back substitution. -/
theorem C133_lmi0_query {α : Type} [Scalar α] {o : LMI0Oracle α} (ho : o.ForSize d n) {x : Arr α} (hx : x.IsVecShape d) :
    ∃ r o', o.assess x = .ok (r, o') ∧ o'.ForSize d n ∧ o'.matF = o.matF ∧
      (r = none ↔ LdlPasses (o.entryOf d x) n) ∧
      ∀ g b, r = some (g, b) → g.IsVecShape d ∧ ∃ p S v, LdlStops (o.entryOf d x) n p S v ∧ b = -S p p ∧
        ∀ k < d, g.vec k = -quadTo (p + 1) v (fEntry o.matF k) (p + 1) := by
  have hxl : x.len = d := hx.isVec.len'
  have hl := ho.count
  obtain ⟨S, hS⟩ := ldlEnd (getElem := o.elem x) ho.mgr (A := o.entryOf d x) fun i j hj hi => by
    unfold LMI0Oracle.elem
    rw [hxl]
    apply forRange_sum
    intro k acc hk
    obtain ⟨e1, e2⟩ := nthMat_ok ho.mats (k := k) (by omega)
    rw [e1]
    simp only [Res.ok_bind]
    rw [e2.getij hi (by omega), hx.isVec.idx hk, fEntry_eq (by omega : k < o.matF.length)]
    rfl
  cases hS with
  | pass m' h hs hB hp =>
    have e : o.assess x = .ok (none, { o with mgr := m' }) := by
      unfold LMI0Oracle.assess
      rw [h]; rfl
    exact ⟨none, { o with mgr := m' }, e, ⟨ho.mats, ho.count, hs⟩, rfl, ⟨fun _ => ⟨S, .of_blk hB, hp⟩, fun _ => rfl⟩, by simp⟩
  | fail p v m1 m2 h hw hs hpn hB hp hpp hv hq =>
    obtain ⟨g, hg, hgv⟩ := forRange_fill d (fun k => -quadTo (p + 1) v (fEntry o.matF k) (p + 1)) (fun k g => do
        let f ← nthMat o.matF k
        let v ← m2.symQuad f
        g.setIdx k (-v)) (by
      intro k a hk
      obtain ⟨e1, e2⟩ := nthMat_ok ho.mats (k := k) (by omega)
      rw [e1]
      simp only [Res.ok_bind]
      rw [hq _ _ (e2.congr fun i j _ _ => (fEntry_eq (by omega : k < o.matF.length)).symm)]
      rfl)
    have e1 : lmi0Grad m2 o.matF x.len = .ok g := by unfold lmi0Grad; rw [hxl]; exact hg
    have e : o.assess x = .ok (some (g, -S p p), { o with mgr := m2 }) := by
      unfold LMI0Oracle.assess
      rw [h]
      simp only [Res.ok_bind, Bool.false_eq_true, if_false, hw, e1]
    have hst : LdlStops (o.entryOf d x) n p S v := ⟨hpn, .of_blk hB, hp, hpp, hv⟩
    refine ⟨some (g, -S p p), { o with mgr := m2 }, e, ⟨ho.mats, ho.count, hs⟩, rfl, ⟨by simp, fun hc => absurd hc hst.not_passes⟩, ?_⟩
    intro g' b hr
    simp only [Option.some.injEq, Prod.mk.injEq] at hr
    obtain ⟨rfl, rfl⟩ := hr
    exact ⟨hgv.shape, p, S, v, hst, rfl, fun k hk => hgv.vec hk⟩

/-- **C133** (homogeneous oracle, what acceptance means)  If factoring the computed `Σ x_k F_k` in `f64` meets no pivot that compares as `≤ 0`, and
does so in the range of `f64`, with symmetric matrices, then the true matrix is positive definite up to the margin `4 n (n + d + 1) 2⁻⁵³ s`, where
`s` bounds the sizes `Σ_k |x_k (F_k)_ij|`. -/
theorem C133_lmi0_meaning {o : LMI0Oracle B64} {o' : LMI0Oracle (Fl bin53)} (ho : LMI0Oracle.Same64 d n o o')
    (hsym : ∀ f ∈ o.matF, (f.mat64 n).IsSymm) (hsz : n * n + n + d + 2 ≤ 2 ^ 49)
    {x : Arr B64} {x' : Arr (Fl bin53)} (hxs : x.Same x') (hx : x.IsVecShape d) (hsafe : o'.Safe n d x') (hp : LdlPasses (o.entryOf d x) n)
    {s : ℝ} (hs : ∀ i j, lmi0Size64 d n o.matF x i j ≤ s) :
    (lmi0Mat64 d n o.matF x + (4 * n * (n + d + 1 : Nat) * (2 : ℝ) ^ (-53 : ℤ) * s) • (1 : Matrix (Fin n) (Fin n) ℝ)).PosDef := by
  have hx' : x'.IsVecShape d := ⟨hxs.rows.symm.trans hx.1, hxs.cols.symm.trans hx.2.1, hxs.data.length_eq.symm.trans hx.2.2⟩
  have hfor : o.ForSize d n := ⟨ho.mats.shapes, by rw [ho.mats.same.length_eq, ho.mats.length], ho.mgr⟩
  obtain ⟨r, o1, h1, -, -, h2, -⟩ := C133_lmi0_query hfor hx
  have hr := h2.2 hp
  have hrel := C124_lmi0_oracle ho hxs hx' hsafe
  have ex := vec64_eq hxs hx'
  have hF : FlSymMats d n o'.matF := ⟨ho.mats.length, fun f hf => ⟨ho.mats.shape f hf, by
    obtain ⟨k, hk, rfl⟩ := List.getElem_of_mem hf
    obtain ⟨g1, g2, g3, g4, g5, g6⟩ := ho.mats.entry (k := k) (by rw [← ho.mats.length]; exact hk)
    rw [← mat64_eq g3 g5]
    exact hsym _ (List.getElem_mem g1)⟩⟩
  have hsize : ∀ i j, lmi0Size64 d n o.matF x i j = flLinSize n o'.matF (x'.flVec d) i j := by
    intro i j
    unfold lmi0Size64 flLinSize
    rw [ex]
    exact Finset.sum_congr rfl fun k _ => by rw [flMatAt_64 ho.mats k.2]
  have hmat : lmi0Mat64 d n o.matF x = flLinMat n o'.matF (x'.flVec d) := by
    unfold lmi0Mat64 flLinMat
    rw [ex]
    exact Finset.sum_congr rfl fun k _ => by rw [flMatAt_64 ho.mats k.2]
  have hu : 16 * (((n * n + n + d + 2 : Nat) : ℝ) * (2 : ℝ) ^ (-53 : ℤ)) ≤ 1 := by
    have h3 : ((n * n + n + d + 2 : Nat) : ℝ) ≤ (2 : ℝ) ^ 49 := by exact_mod_cast hsz
    have h4 : (2 : ℝ) ^ (-53 : ℤ) = 1 / 2 ^ 53 := by norm_num
    rw [h4, mul_one_div, mul_div_assoc', div_le_one (by positivity)]
    calc (16 : ℝ) * ((n * n + n + d + 2 : Nat) : ℝ) ≤ 16 * 2 ^ 49 := by linarith
      _ = 2 ^ 53 := by norm_num
  obtain ⟨r', o2, h3, -, -, h4, -⟩ := C82_lmi0_rounded hF rfl ho.mgr' hx' hu (s := s) (fun i j => by rw [← hsize]; exact hs i j)
    (f := fun k => ∑ i, ∑ j, |flMatAt n o'.matF k i j|) fun k i j =>
      (Finset.single_le_sum (f := fun j => |flMatAt n o'.matF k i j|) (fun _ _ => abs_nonneg _) (Finset.mem_univ j)).trans
        (Finset.single_le_sum (f := fun i => ∑ j, |flMatAt n o'.matF k i j|) (fun _ _ => Finset.sum_nonneg fun _ _ => abs_nonneg _) (Finset.mem_univ i))
  rw [h1, h3, hr] at hrel
  have hn : r' = none := by
    have := hrel.1
    cases r' with
    | none => rfl
    | some _ => exact this.elim
  rw [hmat]
  exact h4 hn

end Ellalgo

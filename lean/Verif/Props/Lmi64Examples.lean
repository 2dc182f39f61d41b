import Verif.Props.Lmi64
import Verif.Props.Binary64LmiExamples
import Verif.Props.Portfolio64Examples

/-! Cases that meet the hypotheses of C133. -/

namespace Ellalgo.ExLmiQuery64
open Ellalgo Matrix ExLmi64 ExRun64 ExCg64

theorem forSize {α : Type} [Scalar α] : (lmi : LMIOracle α).ForSize 2 1 :=
  ⟨by
    intro f hf
    simp only [lmi, LMIOracle.new, List.mem_cons, List.not_mem_nil, or_false] at hf
    rcases hf with rfl | rfl <;> exact ⟨rfl, rfl, rfl⟩, rfl, ⟨rfl, rfl, rfl⟩, sized⟩

/-- a `1 × 1` matrix passes if its entry does -/
theorem passes_one {α : Type} [Scalar α] {A : Nat → Nat → α} (h : Scalar.le (A 0 0) 0 = false) : LdlPasses A 1 := by
  refine ⟨fun _ _ => A 0 0, ⟨?_, ?_, ?_⟩, fun a _ => h⟩
  · intro a ha
    obtain rfl : a = 0 := by omega
    rfl
  · intro a ha b hb h0; omega
  · intro a ha b hb; omega

/-- C133: a point with a NaN is accepted by both oracles -/
example : ∃ o', LMIOracle.oracle.assess lmi (⟨[.nan, 0], 2, 0⟩ : Arr B64) = .ok (none, o') ∧
    LMIOracle.oracleOld.assess lmi (⟨[.nan, 0], 2, 0⟩ : Arr B64) = .ok (none, o') := by
  obtain ⟨r, o', h1, h2, -, -, h3, -⟩ := C133_lmi_query (forSize (α := B64)) (x := ⟨[.nan, 0], 2, 0⟩) ⟨rfl, rfl, rfl⟩
  have hr : r = none := h3.2 (passes_one (by
    show Scalar.le ((0 : B64) - 1 * B64.nan - 0 * 0) 0 = false
    have e1 : (1 : B64) * B64.nan = B64.nan := by cases h : (1 : B64) <;> rfl
    have e2 : (0 : B64) - B64.nan = B64.nan := rfl
    have e3 : ∀ y : B64, B64.nan - y = B64.nan := fun y => by cases y <;> rfl
    rw [e1, e2, e3]
    rfl))
  subst hr
  exact ⟨o', h1, h2⟩

/-- C133: at the centre of the disc the factorisation stops at the first pivot, which is `≤ 0` -/
example : ∃ g b o' S v, LMIOracle.oracle.assess lmi (disc : Ell (Fl bin53)).xc = .ok (some (g, ⟨b⟩), o') ∧
    LdlStops ((lmi : LMIOracle (Fl bin53)).entryOf 2 (disc : Ell (Fl bin53)).xc) 1 0 S v ∧ b = -S 0 0 := by
  obtain ⟨r, o', h1, -, -, -, -, h3⟩ := C133_lmi_query (forSize (α := Fl bin53)) (x := (disc : Ell (Fl bin53)).xc) ⟨rfl, rfl, rfl⟩
  obtain ⟨o1, h4, -⟩ := first
  have e : r = some cut := by
    have := h1.symm.trans h4
    injection this with this
    injection this
  obtain ⟨-, p, S, v, h5, h6, -⟩ := h3 cut.1 cut.2.beta e
  have hp := h5.row
  obtain rfl : p = 0 := by omega
  rw [e] at h1
  exact ⟨_, _, o', S, v, h1, h5, h6⟩

/-- C133: runs from any ellipsoid of dimension 2, with both oracles -/
example (e : Ell B64) (he : e.Shaped 2) (opts : Options B64) :
    (∃ r k o' s', cuttingPlaneFeas LMIOracle.oracle Ell.space (lmi : LMIOracle B64) e opts = .ok ((r, k), o', s') ∧
      ∀ x, r = some x → LdlPasses ((lmi : LMIOracle B64).entryOf 2 x) 1) ∧
    ∃ r k o' s', cuttingPlaneFeas LMIOracle.oracleOld Ell.space (lmi : LMIOracle B64) e opts = .ok ((r, k), o', s') ∧
      ∀ x, r = some x → LdlPasses ((lmi : LMIOracle B64).entryOf 2 x) 1 := by
  obtain ⟨r, k, o', s', h1, h2⟩ := C133_lmi_run (C86_ell_steady (by norm_num)).1 forSize he opts LMIOracle.oracle (.inl rfl)
  obtain ⟨r2, k2, o2, s2, h3, h4⟩ := C133_lmi_run (C86_ell_steady (by norm_num)).1 forSize he opts LMIOracle.oracleOld (.inr rfl)
  exact ⟨⟨r, k, o', s', h1, fun x hx => (h2 x hx).2⟩, r2, k2, o2, s2, h3, fun x hx => (h4 x hx).2⟩

/-- the point `(-1, 0)` -/
noncomputable def pt : Arr B64 := ⟨[-1, 0], 2, 0⟩

noncomputable def pt' : Arr (Fl bin53) := ⟨[-1, 0], 2, 0⟩

theorem pt_same : pt.Same pt' := ⟨rfl, rfl, .cons Same.one.neg (.cons .zero .nil)⟩

theorem pt_val : (pt'.vec 0).val = -1 := rfl

theorem pt_safe : (lmi : LMIOracle (Fl bin53)).Safe 1 2 pt' :=
  safe rfl rfl (.inr (by rw [pt_val, abs_neg, abs_one]; norm_num)) (by rw [pt_val, abs_neg, abs_one]; norm_num)

theorem pt_passes : LdlPasses ((lmi : LMIOracle B64).entryOf 2 pt) 1 := by
  obtain ⟨r, o', h1, -, -, -, h3, -⟩ := C133_lmi_query (forSize (α := B64)) (x := pt) ⟨rfl, rfl, rfl⟩
  obtain ⟨o'', h4⟩ := accepts (o := lmi) rfl rfl sized (x := pt') ⟨rfl, rfl, rfl⟩ (by rw [pt_val]; norm_num)
  have h := C124_lmi_oracle lmi lmi pt pt' lmi_same pt_same ⟨⟨rfl, rfl, rfl⟩, pt_safe⟩
  rw [h1, show LMIOracle.oracle.assess lmi pt' = _ from h4] at h
  refine h3.1 ?_
  have := h.1
  cases r with
  | none => rfl
  | some _ => exact this.elim

/-- C133: acceptance there means `-x₀ + 2⁻⁴⁹ > 0` up to the stated margin -/
example : (lmiMat64 2 1 (lmi : LMIOracle B64).matF (lmi : LMIOracle B64).matB pt +
    (4 * (1 : Nat) * (1 + 2 + 1 : Nat) * (2 : ℝ) ^ (-53 : ℤ) * 1) • (1 : Matrix (Fin 1) (Fin 1) ℝ)).PosDef := by
  refine C133_lmi_meaning lmi_same ?_ ?_ (by norm_num) pt_same ⟨rfl, rfl, rfl⟩ pt_safe pt_passes ?_
  · intro f hf
    ext i j
    rw [Subsingleton.elim i j]
    rfl
  · ext i j
    rw [Subsingleton.elim i j]
    rfl
  · intro i j
    have ei : i = 0 := Subsingleton.elim _ _
    have ej : j = 0 := Subsingleton.elim _ _
    subst ei ej
    unfold lmiSize64
    rw [Fin.sum_univ_two]
    have e1 : (pt.vec64 2 0) = -1 := (pt_same.vec (n := 2) ⟨rfl, rfl, rfl⟩ 0 (by norm_num)).2
    have e2 : ((lmi : LMIOracle B64).matB.mat64 1 0 0) = 0 := rfl
    have e3 : (((lmi : LMIOracle B64).matF.getD (0 : Fin 2) (Arr.new 0)).mat64 1 0 0) = 1 := Same.one.2
    have e4 : (((lmi : LMIOracle B64).matF.getD (1 : Fin 2) (Arr.new 0)).mat64 1 0 0) = 0 := rfl
    rw [e1, e2, e3, e4]
    simp

end Ellalgo.ExLmiQuery64

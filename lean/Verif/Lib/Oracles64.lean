import Verif.Spec.Oracles64
import Verif.Lib.Lmi64
import Verif.Lib.LoopSim
import Verif.Lib.StableShape

/-! The round-robin loop, tables and small vectors in `f64` and in arithmetic rounded to 53 bits. -/

namespace Ellalgo

theorem nthI32_rel {β γ : Type} {R : β → γ → Prop} {l : List β} {l' : List γ} (h : List.Forall₂ R l l') (i : Int) :
    Res.Rel (fun a b => R a b ∧ b ∈ l') (nthI32 l i) (nthI32 l' i) := by
  unfold nthI32
  split
  · have hl := h.length_eq
    by_cases hi : i.toNat < l'.length
    · have hi' : i.toNat < l.length := by omega
      rw [List.getElem?_eq_getElem hi, List.getElem?_eq_getElem hi']
      exact ⟨h.get hi' hi, List.getElem_mem hi⟩
    · rw [List.getElem?_eq_none (by omega), List.getElem?_eq_none (by omega)]
      trivial
  · trivial

theorem rrLoop_rel {σ τ β γ : Type} {P : σ → τ → Prop} {Q : β → γ → Prop} {lo hi : Int} {body : Int → σ → Res (Option β × σ)}
    {body' : Int → τ → Res (Option γ × τ)}
    (hb : ∀ i s t, P s t → Res.Rel (fun p q => OptRel Q p.1 q.1 ∧ P p.2 q.2) (body i s) (body' i t)) (k : Nat) :
    ∀ (idx : Int) (s : σ) (t : τ), P s t →
      Res.Rel (fun p q => OptRel Q p.1 q.1 ∧ p.2.1 = q.2.1 ∧ P p.2.2 q.2.2) (rrLoop lo hi body k idx s) (rrLoop lo hi body' k idx t) := by
  induction k with
  | zero => intro idx s t h; exact ⟨trivial, rfl, h⟩
  | succ k ih =>
    intro idx s t h
    unfold rrLoop
    refine (hb _ s t h).bind ?_
    rintro ⟨r, s1⟩ ⟨r', t1⟩ ⟨h1, h2⟩
    cases r with
    | none =>
      cases r' with
      | none => exact ih _ _ _ h2
      | some b => exact h1.elim
    | some a =>
      cases r' with
      | none => exact h1.elim
      | some b => exact ⟨h1, rfl, h2⟩

theorem Arr.Same.dot {n : Nat} {a b : Arr B64} {a' b' : Arr (Fl bin53)} (h : a.Same a') (k : b.Same b') (ha : a'.IsVecShape n)
    (hb : b'.IsVecShape n) (ok : DotSafe n a'.vec b'.vec) :
    ∃ v, a.dot b = .ok v ∧ a'.dot b' = .ok (dotV n a'.vec b'.vec) ∧ Ellalgo.Same v (dotV n a'.vec b'.vec) :=
  ⟨_, dot_spec (h.vecShape ha).isVec (k.vecShape hb).isVec, dot_spec ha.isVec hb.isVec, SameV.dot (h.vec ha) (k.vec hb) ok⟩

theorem forall₂_map {α β : Type} {R : α → β → Prop} {S : α → β → Prop} {f : α → α} {g : β → β} (hf : ∀ a b, R a b → S (f a) (g b))
    {l : List α} {l' : List β} (h : List.Forall₂ R l l') : List.Forall₂ S (l.map f) (l'.map g) := by
  induction h with
  | nil => exact .nil
  | cons h1 _ ih => exact .cons (hf _ _ h1) ih

theorem Arr.Same.ofList {l : List B64} {l' : List (Fl bin53)} (h : List.Forall₂ Ellalgo.Same l l') : (Arr.ofList l).Same (Arr.ofList l') :=
  ⟨h.length_eq, rfl, h⟩

theorem Arr.Same.negVec {a : Arr B64} {a' : Arr (Fl bin53)} (h : a.Same a') : (Ellalgo.negVec a).Same (Ellalgo.negVec a') :=
  Arr.Same.ofList (forall₂_map (fun _ _ h => h.neg) h.data)

theorem Arr.Same.new (n : Nat) : (Arr.new n : Arr B64).Same (Arr.new n) := by
  refine ⟨rfl, rfl, ?_⟩
  show List.Forall₂ Ellalgo.Same (List.replicate n 0) (List.replicate n 0)
  induction n with
  | zero => exact .nil
  | succ n ih => exact .cons .zero ih

theorem Arr.Same.set {a : Arr B64} {a' : Arr (Fl bin53)} (h : a.Same a') (i : Nat) {v : B64} {v' : Fl bin53} (hv : Ellalgo.Same v v') :
    Res.Rel Arr.Same (a.setIdx i v) (a'.setIdx i v') := by
  have hl := h.data.length_eq
  unfold Arr.setIdx
  by_cases hi : i < a'.data.length
  · rw [if_pos (by omega), if_pos hi]
    refine ⟨h.rows, h.cols, ?_⟩
    show List.Forall₂ Ellalgo.Same (a.data.set i v) (a'.data.set i v')
    exact List.forall₂_iff_get.2 ⟨by simpa using hl, fun j h1 h2 => by
      simp only [List.get_eq_getElem, List.getElem_set]
      split_ifs
      · exact hv
      · exact h.data.get (by simpa using h1) (by simpa using h2)⟩
  · rw [if_neg (by omega), if_neg hi]
    trivial

theorem Arr.Same.getIdx {a : Arr B64} {a' : Arr (Fl bin53)} (h : a.Same a') (i : Nat) : Res.Rel Ellalgo.Same (a.idx i) (a'.idx i) := by
  have hl := h.data.length_eq
  unfold Arr.idx
  by_cases hi : i < a'.data.length
  · have hi' : i < a.data.length := by omega
    rw [List.getElem?_eq_getElem hi, List.getElem?_eq_getElem hi']
    exact h.data.get hi' hi
  · rw [List.getElem?_eq_none (by omega), List.getElem?_eq_none (by omega)]
    trivial

theorem Same.ofInt {k : Int} (hk : |k| ≤ 2 ^ 31) : Same (Scalar.ofInt k) (Scalar.ofInt k) := by
  have hk' : |(k : ℝ)| ≤ (2 : ℝ) ^ (31 : ℤ) := by
    rw [← Int.cast_abs]
    have : ((|k| : ℤ) : ℝ) ≤ ((2 ^ 31 : ℤ) : ℝ) := by exact_mod_cast hk
    refine this.trans (le_of_eq ?_)
    norm_num
  refine Ellalgo.ofReal_normal ?_ ?_
  · by_cases h : k = 0
    · left; rw [h, Int.cast_zero]
    · right
      have h1 : (1 : ℝ) ≤ |(k : ℝ)| := by
        rw [← Int.cast_abs]
        exact_mod_cast Int.one_le_abs h
      exact le_trans (zpow_le_one_of_nonpos₀ (by norm_num) (by norm_num)) h1
  · obtain ⟨h1, h2⟩ := abs_le.1 hk'
    have h3 := rnd53_mono _ _ h1
    have h4 := rnd53_mono _ _ h2
    rw [rnd53_neg_pow] at h3
    rw [rnd53_pow] at h4
    exact (abs_le.2 ⟨h3, h4⟩).trans_lt (zpow_lt_zpow_right₀ (by norm_num) (by norm_num))

end Ellalgo

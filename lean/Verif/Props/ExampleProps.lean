import Verif.Model.Examples
import Verif.Lib.Pair
import Verif.Props.Solve
import Verif.Props.Bsearch

/-! C58: the linear example oracles `example1`, `example1_rr`, `example3`, `example4`, and C59: solving them. -/

namespace Ellalgo
open Matrix

/-- the loop of the linear examples: either no constraint is violated, or the reported cut is a violated one -/
theorem cutIf_loop {m : Int} (hm : 0 < m) {body : Int → Unit → Res (Option (Arr ℝ × SingleCut ℝ) × Unit)}
    (f : Int → ℝ) (g : Int → List ℝ) (hb : ∀ i, 0 ≤ i → i < m → body i () = cutIf (f i) (g i)) {idx : Int}
    (h1 : -1 ≤ idx) (h2 : idx < m) :
    ∃ r idx', rrLoop 0 m body m.toNat idx () = .ok (r, idx', ()) ∧ 0 ≤ idx' ∧ idx' < m ∧
      (r = none → ∀ j, 0 ≤ j → j < m → f j ≤ 0) ∧
      (∀ b, r = some b → 0 < f idx' ∧ b = (Arr.ofList (g idx'), ⟨f idx'⟩)) := by
  obtain ⟨r, idx', hr, hin, -, hn, hs⟩ := rrLoop_test (lo := 0) (hi := m) (idx := idx) (body := body)
    (t := fun i => if 0 < f i then some (Arr.ofList (g i), ⟨f i⟩) else none) (by omega) (fun _ => h2) (by
      intro i hi1 hi2
      rw [hb i hi1 hi2]
      simp only [cutIf, Scalar.real_gt, decide_eq_true_eq]
      split <;> rfl)
  rw [sub_zero] at hr
  refine ⟨r, idx', hr, (hin hm).1, (hin hm).2, ?_, ?_⟩
  · intro h j hj1 hj2
    have := hn h j hj1 hj2
    by_contra hc
    rw [if_pos (not_le.1 hc)] at this
    simp at this
  · intro b h
    have := (hs b h).2.2
    by_cases hc : 0 < f idx'
    · rw [if_pos hc] at this
      exact ⟨hc, by simpa using this.symm⟩
    · rw [if_neg hc] at this
      simp at this

/-! ## example1 and example1_rr: maximise `x + y` subject to `x + y ≤ 3`, `y + 1 ≤ x` -/

def ex1F : Set (Fin 2 → ℝ) := {z | z 0 + z 1 ≤ 3 ∧ z 1 + 1 ≤ z 0}
def ex1Obj (z : Fin 2 → ℝ) : ℝ := z 0 + z 1

macro "pair_fact" : tactic => `(tactic| (rw [pair_toVec, pair_dot]; simp only [Pi.sub_apply]))
macro "pair_ne0" : tactic => `(tactic| (rw [pair_toVec]; intro h; have := congrFun h 0; simp at this))
macro "pair_ne1" : tactic => `(tactic| (rw [pair_toVec]; intro h; have := congrFun h 1; simp at this))
macro "pair_norm" : tactic => `(tactic| (rw [pair_toVec, normSq, pair_dot]; norm_num))

/-- **C58** `example1::MyOracle` answers every query correctly. -/
theorem C58_example1 : Maximizes 2 (ex1Oracle (α := ℝ)) (fun _ _ => True) ex1F ex1Obj 1 := by
  intro o x γ _ hx
  obtain ⟨hx0, hx1⟩ := idx_pair hx
  set v := x.toVec 2 with hv
  simp only [ex1Oracle, ex1Assess, hx0, hx1, Res.ok_bind, Scalar.real_gt, decide_eq_true_eq, nat]
  push_cast
  split
  · rename_i h1
    refine ⟨_, _, _, _, _, rfl, trivial, ⟨pair_shape _ _, ?_, rfl, ?_, by simp⟩, by pair_ne0, by pair_norm⟩
    · simp only [Bool.false_eq_true, false_iff]
      rintro ⟨⟨h, -⟩, -⟩
      have : v 0 + v 1 ≤ 3 := h
      linarith
    · intro _
      refine ⟨h1, ?_⟩
      rintro z ⟨hz1, hz2⟩ hz
      pair_fact
      linarith
  · rename_i h1
    split
    · rename_i h2
      refine ⟨_, _, _, _, _, rfl, trivial, ⟨pair_shape _ _, ?_, rfl, ?_, by simp⟩, by pair_ne0, by pair_norm⟩
      · simp only [Bool.false_eq_true, false_iff]
        rintro ⟨⟨-, h⟩, -⟩
        have : v 1 + 1 ≤ v 0 := h
        linarith
      · intro _
        refine ⟨h2, ?_⟩
        rintro z ⟨hz1, hz2⟩ hz
        pair_fact
        linarith
    · rename_i h2
      split
      · rename_i h3
        refine ⟨_, _, _, _, _, rfl, trivial, ⟨pair_shape _ _, ?_, rfl, ?_, by simp⟩, by pair_ne0, by pair_norm⟩
        · simp only [Bool.false_eq_true, false_iff]
          rintro ⟨-, h⟩
          have : γ ≤ v 0 + v 1 := h
          linarith
        · intro _
          refine ⟨h3, ?_⟩
          rintro z ⟨hz1, hz2⟩ hz
          have : γ ≤ z 0 + z 1 := hz
          pair_fact
          linarith
      · rename_i h3
        refine ⟨_, _, _, _, _, rfl, trivial, ⟨pair_shape _ _, ?_, rfl, by simp, ?_⟩, by pair_ne0, by pair_norm⟩
        · simp only [true_iff]
          refine ⟨⟨?_, ?_⟩, ?_⟩
          · linarith
          · linarith
          · show γ ≤ v 0 + v 1; linarith
        · intro _
          refine ⟨rfl, ?_⟩
          rintro z ⟨hz1, hz2⟩ hz
          have : v 0 + v 1 ≤ z 0 + z 1 := hz
          pair_fact
          linarith

/-- **C58** `example1_rr::MyOracle` answers every query correctly, from every reachable position. -/
theorem C58_example1_rr :
    Maximizes 2 (ex1rrOracle (α := ℝ)) (fun idx _ => -1 ≤ idx ∧ idx < 3) ex1F ex1Obj 1 := by
  rintro idx x γ ⟨h1, h2⟩ hx
  obtain ⟨hx0, hx1⟩ := idx_pair hx
  set v := x.toVec 2 with hv
  obtain ⟨r, idx', hr, hi1, hi2, hn, hs⟩ := cutIf_loop (m := 3) (by norm_num) (body := ex1rrBody (v 0) (v 1) (v 0 + v 1) γ)
    (fun i => if i = 0 then v 0 + v 1 - 3 else if i = 1 then -v 0 + v 1 + 1 else γ - (v 0 + v 1))
    (fun i => if i = 0 then [1, 1] else if i = 1 then [-1, 1] else [-1, -1])
    (by
      intro i hi1 hi2
      obtain rfl | rfl | rfl : i = 0 ∨ i = 1 ∨ i = 2 := by omega
      all_goals simp [ex1rrBody, nat])
    h1 h2
  have hr' : rrLoop 0 3 (ex1rrBody (v 0) (v 1) (v 0 + v 1) γ) 3 idx () = .ok (r, idx', ()) := hr
  simp only [ex1rrOracle, ex1rrAssess, hx0, hx1, Res.ok_bind, hr']
  cases r with
  | some b =>
    obtain ⟨hf, rfl⟩ := hs b rfl
    obtain rfl | rfl | rfl : idx' = 0 ∨ idx' = 1 ∨ idx' = 2 := by omega
    · simp only [if_true] at hf ⊢
      refine ⟨_, _, _, _, _, rfl, by norm_num, ⟨pair_shape _ _, ?_, rfl, ?_, by simp⟩, by pair_ne0, by pair_norm⟩
      · simp only [Bool.false_eq_true, false_iff]
        rintro ⟨⟨h, -⟩, -⟩
        have : v 0 + v 1 ≤ 3 := h
        linarith
      · intro _
        refine ⟨hf, ?_⟩
        rintro z ⟨hz1, hz2⟩ hz
        pair_fact
        linarith
    · simp only [one_ne_zero, if_true, if_false] at hf ⊢
      refine ⟨_, _, _, _, _, rfl, by norm_num, ⟨pair_shape _ _, ?_, rfl, ?_, by simp⟩, by pair_ne0, by pair_norm⟩
      · simp only [Bool.false_eq_true, false_iff]
        rintro ⟨⟨-, h⟩, -⟩
        have : v 1 + 1 ≤ v 0 := h
        linarith
      · intro _
        refine ⟨hf, ?_⟩
        rintro z ⟨hz1, hz2⟩ hz
        pair_fact
        linarith
    · norm_num only [if_true, if_false] at hf ⊢
      refine ⟨_, _, _, _, _, rfl, by norm_num, ⟨pair_shape _ _, ?_, rfl, ?_, by simp⟩, by pair_ne0, by pair_norm⟩
      · simp only [Bool.false_eq_true, false_iff]
        rintro ⟨-, h⟩
        have : γ ≤ v 0 + v 1 := h
        linarith
      · intro _
        refine ⟨hf, ?_⟩
        rintro z ⟨hz1, hz2⟩ hz
        have : γ ≤ z 0 + z 1 := hz
        pair_fact
        linarith
  | none =>
    have f0 := hn rfl 0 (by norm_num) (by norm_num)
    have f1 := hn rfl 1 (by norm_num) (by norm_num)
    have f2 := hn rfl 2 (by norm_num) (by norm_num)
    norm_num at f0 f1 f2
    refine ⟨_, _, _, _, _, rfl, ⟨by omega, hi2⟩, ⟨pair_shape _ _, ?_, rfl, by simp, ?_⟩, by pair_ne0, by pair_norm⟩
    · simp only [true_iff]
      refine ⟨⟨?_, ?_⟩, ?_⟩
      · linarith
      · linarith
      · show γ ≤ v 0 + v 1; linarith
    · intro _
      refine ⟨rfl, ?_⟩
      rintro z ⟨hz1, hz2⟩ hz
      have : v 0 + v 1 ≤ z 0 + z 1 := hz
      pair_fact
      linarith

/-- **C58** `example1` and `example1_rr` agree on what counts: same improvement verdict and same new value at every
query. -/
theorem C58_example1_agree (idx : Int) (h1 : -1 ≤ idx) (h2 : idx < 3) (x : Arr ℝ) (hx : x.IsVecShape 2) (γ : ℝ) :
    ∃ c c' s γ' idx', ex1Oracle.assess () x γ = .ok ((c, s), γ', ()) ∧
      ex1rrOracle.assess idx x γ = .ok ((c', s), γ', idx') := by
  obtain ⟨g, b, s, γ', w', h, -, ha, -⟩ := C58_example1 () x γ trivial hx
  obtain ⟨g2, b2, s2, γ2, w2, h2, -, ha2, -⟩ := C58_example1_rr idx x γ ⟨h1, h2⟩ hx
  have hs : s = s2 := by
    have := ha.improves.trans ha2.improves.symm
    exact Bool.eq_iff_iff.2 this
  subst hs
  have hg : γ' = γ2 := ha.value.trans ha2.value.symm
  subst hg
  exact ⟨_, _, s, γ', w2, h, h2⟩

/-! ## example4: maximise `2x - 3y` subject to `-1 ≤ x`, `-2 ≤ y`, `x + y ≤ 1` -/

def ex4F : Set (Fin 2 → ℝ) := {z | -1 ≤ z 0 ∧ -2 ≤ z 1 ∧ z 0 + z 1 ≤ 1}
def ex4Obj (z : Fin 2 → ℝ) : ℝ := 2 * z 0 - 3 * z 1

/-- **C58** `example4::MyOracle` answers every query correctly, from every reachable position. -/
theorem C58_example4 :
    Maximizes 2 (ex4Oracle (α := ℝ)) (fun idx _ => -1 ≤ idx ∧ idx < 4) ex4F ex4Obj 1 := by
  rintro idx x γ ⟨h1, h2⟩ hx
  obtain ⟨hx0, hx1⟩ := idx_pair hx
  set v := x.toVec 2 with hv
  obtain ⟨r, idx', hr, hi1, hi2, hn, hs⟩ := cutIf_loop (m := 4) (by norm_num)
    (body := ex4Body (v 0) (v 1) (2 * v 0 - 3 * v 1) γ)
    (fun i => if i = 0 then -v 0 - 1 else if i = 1 then -v 1 - 2 else if i = 2 then v 0 + v 1 - 1
      else γ - (2 * v 0 - 3 * v 1))
    (fun i => if i = 0 then [-1, 0] else if i = 1 then [0, -1] else if i = 2 then [1, 1] else [-2, 3])
    (by
      intro i hi1 hi2
      obtain rfl | rfl | rfl | rfl : i = 0 ∨ i = 1 ∨ i = 2 ∨ i = 3 := by omega
      all_goals simp [ex4Body, nat])
    h1 h2
  have hr' : rrLoop 0 4 (ex4Body (v 0) (v 1) (2 * v 0 - 3 * v 1) γ) 4 idx () = .ok (r, idx', ()) := hr
  have n2 : (nat 2 : ℝ) = 2 := by simp [nat]
  have n3 : (nat 3 : ℝ) = 3 := by simp [nat]
  simp only [ex4Oracle, ex4Assess, hx0, hx1, Res.ok_bind, n2, n3, hr']
  cases r with
  | some b =>
    obtain ⟨hf, rfl⟩ := hs b rfl
    obtain rfl | rfl | rfl | rfl : idx' = 0 ∨ idx' = 1 ∨ idx' = 2 ∨ idx' = 3 := by omega
    · simp only [if_true] at hf ⊢
      refine ⟨_, _, _, _, _, rfl, by norm_num, ⟨pair_shape _ _, ?_, rfl, ?_, by simp⟩, by pair_ne0, by pair_norm⟩
      · simp only [Bool.false_eq_true, false_iff]
        rintro ⟨⟨h, -⟩, -⟩
        linarith
      · intro _
        refine ⟨hf, ?_⟩
        rintro z ⟨hz1, hz2, hz3⟩ hz
        pair_fact
        linarith
    · simp only [one_ne_zero, if_true, if_false] at hf ⊢
      refine ⟨_, _, _, _, _, rfl, by norm_num, ⟨pair_shape _ _, ?_, rfl, ?_, by simp⟩, by pair_ne1, by pair_norm⟩
      · simp only [Bool.false_eq_true, false_iff]
        rintro ⟨⟨-, h, -⟩, -⟩
        linarith
      · intro _
        refine ⟨hf, ?_⟩
        rintro z ⟨hz1, hz2, hz3⟩ hz
        pair_fact
        linarith
    · norm_num only [if_true, if_false] at hf ⊢
      refine ⟨_, _, _, _, _, rfl, by norm_num, ⟨pair_shape _ _, ?_, rfl, ?_, by simp⟩, by pair_ne0, by pair_norm⟩
      · simp only [Bool.false_eq_true, false_iff]
        rintro ⟨⟨-, -, h⟩, -⟩
        linarith
      · intro _
        refine ⟨by linarith, ?_⟩
        rintro z ⟨hz1, hz2, hz3⟩ hz
        pair_fact
        linarith
    · norm_num only [if_true, if_false] at hf ⊢
      refine ⟨_, _, _, _, _, rfl, by norm_num, ⟨pair_shape _ _, ?_, rfl, ?_, by simp⟩, by pair_ne0, by pair_norm⟩
      · simp only [Bool.false_eq_true, false_iff]
        rintro ⟨-, h⟩
        have : γ ≤ 2 * v 0 - 3 * v 1 := h
        linarith
      · intro _
        refine ⟨by linarith, ?_⟩
        rintro z ⟨hz1, hz2⟩ hz
        have : γ ≤ 2 * z 0 - 3 * z 1 := hz
        pair_fact
        linarith
  | none =>
    have f0 := hn rfl 0 (by norm_num) (by norm_num)
    have f1 := hn rfl 1 (by norm_num) (by norm_num)
    have f2 := hn rfl 2 (by norm_num) (by norm_num)
    have f3 := hn rfl 3 (by norm_num) (by norm_num)
    norm_num at f0 f1 f2 f3
    refine ⟨_, _, _, _, _, rfl, ⟨by omega, hi2⟩, ⟨pair_shape _ _, ?_, rfl, by simp, ?_⟩, by pair_ne0, by pair_norm⟩
    · simp only [true_iff]
      refine ⟨⟨?_, ?_, ?_⟩, ?_⟩
      · linarith
      · linarith
      · linarith
      · show γ ≤ 2 * v 0 - 3 * v 1; linarith
    · intro _
      refine ⟨rfl, ?_⟩
      rintro z ⟨hz1, hz2⟩ hz
      have : 2 * v 0 - 3 * v 1 ≤ 2 * z 0 - 3 * z 1 := hz
      pair_fact
      linarith

/-! ## example3: the feasibility version of example4's set with a target on `2x - 3y` -/

def ex3K (t : ℝ) : Set (Fin 2 → ℝ) := {z | z ∈ ex4F ∧ 2 * z 0 - 3 * z 1 ≤ t}

/-- **C58** one query of `MyOracle3` with target `t`: it accepts exactly the points of the polyhedron; otherwise the
cut is violated at the query, keeps the whole polyhedron and has a gradient of norm at least 1; the target is kept and
the position stays reachable. -/
theorem C58_example3 (o : Ex3 ℝ) (h1 : -1 ≤ o.idx) (h2 : o.idx < 4) (x : Arr ℝ) (hx : x.IsVecShape 2) :
    ∃ r o', Ex3.oracle.assess o x = .ok (r, o') ∧ (-1 ≤ o'.idx ∧ o'.idx < 4 ∧ o'.target = o.target) ∧
      (r = none ↔ x.toVec 2 ∈ ex3K o.target) ∧
      ∀ g c, r = some (g, c) → g.IsVecShape 2 ∧ 1 ≤ normSq (g.toVec 2) ∧ 0 < c.beta ∧
        ∀ z ∈ ex3K o.target, g.toVec 2 ⬝ᵥ (z - x.toVec 2) + c.beta ≤ 0 := by
  obtain ⟨hx0, hx1⟩ := idx_pair hx
  set v := x.toVec 2 with hv
  have n2 : (nat 2 : ℝ) = 2 := by simp [nat]
  have n3 : (nat 3 : ℝ) = 3 := by simp [nat]
  obtain ⟨r, idx', hr, hi1, hi2, hn, hs⟩ := cutIf_loop (m := 4) (by norm_num)
    (body := ex3Body (v 0) (v 1) o.target)
    (fun i => if i = 0 then -v 0 - 1 else if i = 1 then -v 1 - 2 else if i = 2 then v 0 + v 1 - 1
      else 2 * v 0 - 3 * v 1 - o.target)
    (fun i => if i = 0 then [-1, 0] else if i = 1 then [0, -1] else if i = 2 then [1, 1] else [2, -3])
    (by
      intro i hi1 hi2
      obtain rfl | rfl | rfl | rfl : i = 0 ∨ i = 1 ∨ i = 2 ∨ i = 3 := by omega
      all_goals simp [ex3Body, n2, n3])
    h1 h2
  have hr' : rrLoop 0 4 (ex3Body (v 0) (v 1) o.target) 4 o.idx () = .ok (r, idx', ()) := hr
  simp only [Ex3.oracle, Ex3.assess, hx0, hx1, Res.ok_bind, hr']
  refine ⟨r, _, rfl, ⟨show -1 ≤ idx' by omega, hi2, rfl⟩, ⟨?_, ?_⟩, ?_⟩
  · intro h
    have f0 := hn h 0 (by norm_num) (by norm_num)
    have f1 := hn h 1 (by norm_num) (by norm_num)
    have f2 := hn h 2 (by norm_num) (by norm_num)
    have f3 := hn h 3 (by norm_num) (by norm_num)
    norm_num at f0 f1 f2 f3
    refine ⟨⟨?_, ?_, ?_⟩, ?_⟩
    · linarith
    · linarith
    · linarith
    · show 2 * v 0 - 3 * v 1 ≤ o.target
      linarith
  · rintro ⟨⟨a, b, c⟩, d⟩
    by_contra hne
    obtain ⟨p, hp⟩ := Option.ne_none_iff_exists'.1 hne
    have hf := (hs p hp).1
    obtain rfl | rfl | rfl | rfl : idx' = 0 ∨ idx' = 1 ∨ idx' = 2 ∨ idx' = 3 := by omega
    all_goals norm_num at hf
    all_goals linarith
  · intro g c hgc
    obtain ⟨hf, hb⟩ := hs _ hgc
    simp only [Prod.mk.injEq] at hb
    obtain ⟨rfl, rfl⟩ := hb
    obtain rfl | rfl | rfl | rfl : idx' = 0 ∨ idx' = 1 ∨ idx' = 2 ∨ idx' = 3 := by omega
    · simp only [if_true] at hf ⊢
      refine ⟨pair_shape _ _, by pair_norm, hf, ?_⟩
      rintro z ⟨⟨hz1, hz2, hz3⟩, hz4⟩
      pair_fact
      linarith
    · simp only [one_ne_zero, if_true, if_false] at hf ⊢
      refine ⟨pair_shape _ _, by pair_norm, hf, ?_⟩
      rintro z ⟨⟨hz1, hz2, hz3⟩, hz4⟩
      pair_fact
      linarith
    · norm_num only [if_true, if_false] at hf ⊢
      refine ⟨pair_shape _ _, by pair_norm, by linarith, ?_⟩
      rintro z ⟨⟨hz1, hz2, hz3⟩, hz4⟩
      pair_fact
      linarith
    · norm_num only [if_true, if_false] at hf ⊢
      refine ⟨pair_shape _ _, by pair_norm, by linarith, ?_⟩
      rintro z ⟨⟨hz1, hz2, hz3⟩, hz4⟩
      pair_fact
      linarith

/-- **C58** a fresh `MyOracle3` (target `-1e100`) accepts no point at all until `update` has been called; after `update(γ)` it
decides the polyhedron with `2x - 3y ≤ γ`. -/
theorem C58_example3_default (x : Arr ℝ) (hx : x.IsVecShape 2) :
    (∃ g c o', Ex3.oracle.assess (Ex3.default : Ex3 ℝ) x = .ok (some (g, c), o')) ∧
    ∀ γ, ∃ o1 r o', Ex3.oracle.update (Ex3.default : Ex3 ℝ) γ = .ok o1 ∧ Ex3.oracle.assess o1 x = .ok (r, o') ∧
      (r = none ↔ x.toVec 2 ∈ ex3K γ) := by
  constructor
  · obtain ⟨r, o', h, -, hn, -⟩ := C58_example3 (Ex3.default : Ex3 ℝ) (le_refl _) (by norm_num [Ex3.default]) x hx
    rcases r with _ | ⟨g, c⟩
    · exfalso
      obtain ⟨⟨a, b, c⟩, e⟩ := hn.1 rfl
      have ht : (Ex3.default : Ex3 ℝ).target = -10 ^ 100 := by norm_num [Ex3.default, nat]
      rw [ht] at e
      have : (10 : ℝ) ^ 100 ≥ 100 := by norm_num
      linarith
    · exact ⟨g, c, o', h⟩
  · intro γ
    obtain ⟨r, o', h, -, hn, -⟩ := C58_example3 (⟨-1, γ⟩ : Ex3 ℝ) (le_refl _) (by norm_num) x hx
    exact ⟨⟨-1, γ⟩, r, o', rfl, h, hn⟩

/-! ## C59: the examples are solved -/

theorem ex1F_convex : Convex ℝ ex1F := by
  rintro x ⟨hx1, hx2⟩ y ⟨hy1, hy2⟩ a b ha hb hab
  constructor
  · show (a * x 0 + b * y 0) + (a * x 1 + b * y 1) ≤ 3
    nlinarith
  · show (a * x 1 + b * y 1) + 1 ≤ a * x 0 + b * y 0
    nlinarith

theorem ex1F_interior : (interior ex1F).Nonempty := by
  refine ⟨![0, -2], ?_⟩
  rw [mem_interior]
  refine ⟨{z | z 0 + z 1 < 3} ∩ {z | z 1 + 1 < z 0}, fun z hz => ⟨le_of_lt hz.1, le_of_lt hz.2⟩, ?_, ?_⟩
  · exact (isOpen_lt (by fun_prop) (by fun_prop)).inter (isOpen_lt (by fun_prop) (by fun_prop))
  · constructor
    · show (0 : ℝ) + -2 < 3
      norm_num
    · show (-2 : ℝ) + 1 < 0
      norm_num

theorem ex4F_convex : Convex ℝ ex4F := by
  rintro x ⟨hx1, hx2, hx3⟩ y ⟨hy1, hy2, hy3⟩ a b ha hb hab
  refine ⟨?_, ?_, ?_⟩
  · show -1 ≤ a * x 0 + b * y 0
    nlinarith
  · show -2 ≤ a * x 1 + b * y 1
    nlinarith
  · show (a * x 0 + b * y 0) + (a * x 1 + b * y 1) ≤ 1
    nlinarith

theorem ex4F_interior : (interior ex4F).Nonempty := by
  refine ⟨![0, 0], ?_⟩
  rw [mem_interior]
  refine ⟨{z | -1 < z 0} ∩ ({z | -2 < z 1} ∩ {z | z 0 + z 1 < 1}),
    fun z hz => ⟨le_of_lt hz.1, le_of_lt hz.2.1, le_of_lt hz.2.2⟩, ?_, ?_⟩
  · exact (isOpen_lt (by fun_prop) (by fun_prop)).inter
      ((isOpen_lt (by fun_prop) (by fun_prop)).inter (isOpen_lt (by fun_prop) (by fun_prop)))
  · refine ⟨?_, ?_, ?_⟩
    · show (-1 : ℝ) < 0
      norm_num
    · show (-2 : ℝ) < 0
      norm_num
    · show (0 : ℝ) + 0 < 1
      norm_num

/-- **C59** example1 is solved: the optimal value 3 is reached up to any `ε` from any ellipsoid whose interior contains
some optimal point. -/
theorem C59_example1_solved (e : Ell ℝ) (he : e.Valid 2) (xs : Fin 2 → ℝ) (hxs : xs 0 + xs 1 = 3 ∧ xs 1 ≤ 1)
    (hin : xs ∈ interior (e.region 2)) {γ : ℝ} (hγ : γ ≤ 3) {ε : ℝ} (hε : 0 < ε) :
    ∃ (N : Nat) (tol0 : ℝ), 0 < tol0 ∧ ∀ opts : Options ℝ, N ≤ opts.maxIters → opts.tolerance ≤ tol0 →
      ∃ xb k γ' e', cuttingPlaneOptim ex1Oracle Ell.space () e γ opts = .ok ((xb, k), γ', (), e') ∧
        3 - ε ≤ γ' ∧ γ' ≤ 3 ∧
        ((xb = none ∧ γ' = γ) ∨ ∃ x, xb = some x ∧ x.toVec 2 ∈ ex1F ∧ ex1Obj (x.toVec 2) = γ') := by
  have hv : ex1Obj xs = 3 := hxs.1
  have := C56_epsilon_optimal C58_example1 one_pos () e γ trivial he ex1F_convex ex1F_interior
    (xs := xs) ⟨hxs.1.le, by linarith [hxs.1, hxs.2]⟩ (fun z hz => by rw [hv]; exact hz.1)
    (by unfold ex1Obj; fun_prop) hin (by rw [hv]; exact hγ) hε
  rw [hv] at this
  obtain ⟨N, t, ht, h⟩ := this
  refine ⟨N, t, ht, fun opts h1 h2 => ?_⟩
  obtain ⟨xb, k, γ', w', e', h⟩ := h opts h1 h2
  exact ⟨xb, k, γ', e', h⟩

/-- **C59** the same for the round-robin version, from every reachable position -/
theorem C59_example1_rr_solved (idx : Int) (h1 : -1 ≤ idx) (h2 : idx < 3) (e : Ell ℝ) (he : e.Valid 2)
    (xs : Fin 2 → ℝ) (hxs : xs 0 + xs 1 = 3 ∧ xs 1 ≤ 1)
    (hin : xs ∈ interior (e.region 2)) {γ : ℝ} (hγ : γ ≤ 3) {ε : ℝ} (hε : 0 < ε) :
    ∃ (N : Nat) (tol0 : ℝ), 0 < tol0 ∧ ∀ opts : Options ℝ, N ≤ opts.maxIters → opts.tolerance ≤ tol0 →
      ∃ xb k γ' idx' e', cuttingPlaneOptim ex1rrOracle Ell.space idx e γ opts = .ok ((xb, k), γ', idx', e') ∧
        3 - ε ≤ γ' ∧ γ' ≤ 3 ∧
        ((xb = none ∧ γ' = γ) ∨ ∃ x, xb = some x ∧ x.toVec 2 ∈ ex1F ∧ ex1Obj (x.toVec 2) = γ') := by
  have hv : ex1Obj xs = 3 := hxs.1
  have := C56_epsilon_optimal C58_example1_rr one_pos idx e γ ⟨h1, h2⟩ he ex1F_convex ex1F_interior
    (xs := xs) ⟨hxs.1.le, by linarith [hxs.1, hxs.2]⟩ (fun z hz => by rw [hv]; exact hz.1)
    (by unfold ex1Obj; fun_prop) hin (by rw [hv]; exact hγ) hε
  rw [hv] at this
  exact this

/-- **C59** example4 is solved: its maximum is 12, at `(3, -2)`. -/
theorem C59_example4_solved (idx : Int) (h1 : -1 ≤ idx) (h2 : idx < 4) (e : Ell ℝ) (he : e.Valid 2)
    (hin : ![3, -2] ∈ interior (e.region 2)) {γ : ℝ} (hγ : γ ≤ 12) {ε : ℝ} (hε : 0 < ε) :
    ∃ (N : Nat) (tol0 : ℝ), 0 < tol0 ∧ ∀ opts : Options ℝ, N ≤ opts.maxIters → opts.tolerance ≤ tol0 →
      ∃ xb k γ' idx' e', cuttingPlaneOptim ex4Oracle Ell.space idx e γ opts = .ok ((xb, k), γ', idx', e') ∧
        12 - ε ≤ γ' ∧ γ' ≤ 12 ∧
        ((xb = none ∧ γ' = γ) ∨ ∃ x, xb = some x ∧ x.toVec 2 ∈ ex4F ∧ ex4Obj (x.toVec 2) = γ') := by
  have hv : ex4Obj ![3, -2] = 12 := by norm_num [ex4Obj]
  have := C56_epsilon_optimal C58_example4 one_pos idx e γ ⟨h1, h2⟩ he ex4F_convex ex4F_interior
    (xs := ![3, -2]) (by refine ⟨?_, ?_, ?_⟩ <;> norm_num)
    (fun z hz => by obtain ⟨a, b, c⟩ := hz; rw [hv, ex4Obj]; linarith)
    (by unfold ex4Obj; fun_prop) hin (by rw [hv]; exact hγ) hε
  rw [hv] at this
  exact this

end Ellalgo

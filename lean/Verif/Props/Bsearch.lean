import Verif.Spec.Runs
import Mathlib.Tactic.Linarith
import Mathlib.Tactic.FieldSimp
import Mathlib.Tactic.Ring
import Mathlib.Tactic.NormNum

/-! # C06-C08: `bsearch` -/

namespace Ellalgo
variable {Ω : Type}

/-- The interval that a list of (probe, accepted?) pairs leaves of `[l, u]`: an accepted probe becomes
the new upper end, a rejected one the new lower end. -/
def bracket (l u : ℝ) : List (ℝ × Bool) → ℝ × ℝ
  | [] => (l, u)
  | (g, true) :: ps => bracket l g ps
  | (g, false) :: ps => bracket g u ps

theorem bracket_append (ps qs : List (ℝ × Bool)) : ∀ l u, bracket l u (ps ++ qs) =
    bracket (bracket l u ps).1 (bracket l u ps).2 qs := by
  induction ps with
  | nil => intros; rfl
  | cons p ps ih =>
    intro l u
    obtain ⟨g, b⟩ := p
    cases b <;> simp [bracket, ih]

/-- `ps` is a bisection of `[l, u]`: every probe is the midpoint of what the earlier answers left. -/
def Bisects (l u : ℝ) (ps : List (ℝ × Bool)) : Prop :=
  ∀ i (hi : i < ps.length),
    ps[i].1 = ((bracket l u (ps.take i)).1 + (bracket l u (ps.take i)).2) / 2

theorem Bisects.cons {l u : ℝ} {b : Bool} {ps : List (ℝ × Bool)}
    (h : Bisects (bracket l u [((l + u) / 2, b)]).1 (bracket l u [((l + u) / 2, b)]).2 ps) :
    Bisects l u (((l + u) / 2, b) :: ps) := by
  intro i hi
  cases i with
  | zero => simp [bracket]
  | succ i =>
    simp only [List.length_cons] at hi
    have := h i (by omega)
    rw [List.getElem_cons_succ, this, List.take_succ_cons,
      ← List.singleton_append (l := List.take i ps), bracket_append [((l + u) / 2, b)]]

theorem bsearchLoop_spec (orc : OracleBS Ω ℝ) (tol : ℝ) (m : Nat) :
    ∀ (n0 : Nat) (w : Ω) (h : List (ℝ × Bool)) (l u l' u' : ℝ) (k : Nat) (w' : Ω) (h' : List (ℝ × Bool)),
    bsearchLoop orc.record tol m n0 (w, h) l u = .ok ((l', u'), k, (w', h')) →
    ∃ ps, h' = h ++ ps ∧ k = n0 + ps.length ∧ Bisects l u ps ∧ (l', u') = bracket l u ps ∧
      ps.length ≤ m ∧ (∀ i < ps.length, tol ≤ (u - l) / 2 ^ (i + 1)) ∧
      (ps.length < m → (u - l) / 2 ^ (ps.length + 1) < tol) := by
  induction m with
  | zero =>
    intro n0 w h l u l' u' k w' h' hr
    simp only [bsearchLoop, Res.ok.injEq, Prod.mk.injEq] at hr
    obtain ⟨⟨rfl, rfl⟩, rfl, rfl, rfl⟩ := hr
    exact ⟨[], by simp, by simp, by intro i hi; simp at hi, rfl, by simp, by simp, by simp⟩
  | succ m ih =>
    intro n0 w h l u l' u' k w' h' hr
    unfold bsearchLoop at hr
    simp only [Scalar.real_lt, decide_eq_true_eq, Nat.cast_ofNat] at hr
    split at hr
    · rename_i ht
      simp only [Res.ok.injEq, Prod.mk.injEq] at hr
      obtain ⟨⟨rfl, rfl⟩, rfl, rfl, rfl⟩ := hr
      exact ⟨[], by simp, by simp, by intro i hi; simp at hi, rfl, by simp, by simp, by simpa using ht⟩
    · rename_i ht
      have hmid : l + (u - l) / 2 = (l + u) / 2 := by ring
      rw [hmid] at hr
      obtain ⟨⟨b, w1, h1⟩, hq, hr⟩ := Res.bind_eq_ok.1 hr
      simp only [OracleBS.record] at hq
      obtain ⟨⟨b0, w0⟩, hq0, hq⟩ := Res.bind_eq_ok.1 hq
      simp only [Res.ok.injEq, Prod.mk.injEq] at hq
      obtain ⟨rfl, rfl, rfl⟩ := hq
      simp only at hr
      have key : ∀ (l1 u1 : ℝ), bracket l u [((l + u) / 2, b0)] = (l1, u1) → u1 - l1 = (u - l) / 2 →
          bsearchLoop orc.record tol m (n0 + 1) (w0, h ++ [((l + u) / 2, b0)]) l1 u1 =
            .ok ((l', u'), k, (w', h')) →
          ∃ ps, h' = h ++ ps ∧ k = n0 + ps.length ∧ Bisects l u ps ∧ (l', u') = bracket l u ps ∧
      ps.length ≤ m + 1 ∧ (∀ i < ps.length, tol ≤ (u - l) / 2 ^ (i + 1)) ∧
      (ps.length < m + 1 → (u - l) / 2 ^ (ps.length + 1) < tol) := by
        intro l1 u1 hb hw hrun
        obtain ⟨ps, hh, hk, hbis, hfin, hlen, hall, hend⟩ := ih _ _ _ _ _ _ _ _ _ _ hrun
        refine ⟨((l + u) / 2, b0) :: ps, by simp [hh], by simp only [List.length_cons]; omega, ?_, ?_,
          by simp only [List.length_cons]; omega, ?_, ?_⟩
        · apply Bisects.cons; rw [hb]; exact hbis
        · rw [hfin, ← List.singleton_append, bracket_append, hb]
        · intro i hi
          cases i with
          | zero => simpa using not_lt.1 ht
          | succ i =>
            simp only [List.length_cons] at hi
            have := hall i (by omega)
            rw [hw, div_div] at this
            rw [pow_succ' 2 (i + 1)]; exact this
        · intro hl
          simp only [List.length_cons] at hl ⊢
          have := hend (by omega)
          rw [hw, div_div] at this
          rw [pow_succ' 2 (ps.length + 1)]; exact this
      cases b0 with
      | true =>
        rw [if_pos rfl] at hr
        exact key _ _ rfl (by ring) hr
      | false =>
        rw [if_neg (by simp)] at hr
        exact key _ _ rfl (by ring) hr

theorem bracket_width (l u : ℝ) (ps : List (ℝ × Bool)) (hb : Bisects l u ps) :
    (bracket l u ps).2 - (bracket l u ps).1 = (u - l) / 2 ^ ps.length := by
  induction ps using List.reverseRecOn with
  | nil => simp [bracket]
  | append_singleton ps p ih =>
    have h1 : Bisects l u ps := by
      intro i hi
      have := hb i (by simp; omega)
      rw [List.getElem_append_left hi, List.take_append_of_le_length (by omega)] at this
      exact this
    have h2 := hb ps.length (by simp)
    simp only [List.getElem_append_right (le_refl _), Nat.sub_self, List.getElem_cons_zero,
      List.take_left] at h2
    have h3 := ih h1
    rw [bracket_append]
    obtain ⟨g, b⟩ := p
    simp only at h2
    rw [List.length_append, List.length_singleton, pow_succ, ← div_div, ← h3]
    cases b <;> simp only [bracket] <;> rw [h2] <;> ring

theorem bracket_mem (P : ℝ → Prop) (l u : ℝ) (ps : List (ℝ × Bool))
    (hans : ∀ p ∈ ps, (p.2 = true ↔ P p.1)) (hl : ¬ P l) (hu : P u) :
    ¬ P (bracket l u ps).1 ∧ P (bracket l u ps).2 := by
  induction ps generalizing l u with
  | nil => exact ⟨hl, hu⟩
  | cons p ps ih =>
    obtain ⟨g, b⟩ := p
    have hg := hans (g, b) (by simp)
    have hrest : ∀ p ∈ ps, (p.2 = true ↔ P p.1) := fun p hp => hans p (by simp [hp])
    cases b with
    | true => exact ih l g hrest hl (hg.1 rfl)
    | false => exact ih g u hrest (fun h => by simpa using hg.2 h) hu

/-- Observing the probes is faithful. -/
theorem bsearchLoop_record_project {α : Type} [Scalar α] (orc : OracleBS Ω α) (tol : α) (m n0 : Nat)
    (w : Ω) (h : List (α × Bool)) (l u : α) :
    (bsearchLoop orc.record tol m n0 (w, h) l u >>= fun r => .ok (r.1, r.2.1, r.2.2.1)) =
      bsearchLoop orc tol m n0 w l u := by
  induction m generalizing n0 w h l u with
  | zero => simp [bsearchLoop]
  | succ m ih =>
    unfold bsearchLoop
    simp only [OracleBS.record]
    split
    · simp
    · cases hq : orc.assess w (l + (u - l) / nat 2) with
      | panic => simp
      | ok r =>
        obtain ⟨b, w1⟩ := r
        cases b
        · simpa [OracleBS.record] using ih _ _ _ _ _
        · simpa [OracleBS.record] using ih _ _ _ _ _

theorem C06_bsearch_record_faithful {α : Type} [Scalar α] (orc : OracleBS Ω α) (w : Ω) (I : α × α)
    (opts : Options α) :
    (bsearch orc.record (w, []) I opts >>= fun r => .ok (r.1, r.2.1.1, r.2.2)) =
      bsearch orc w I opts := by
  obtain ⟨l, u⟩ := I
  unfold bsearch
  have h := bsearchLoop_record_project orc opts.tolerance opts.maxIters 0 w [] l u
  dsimp only
  rw [← h]
  cases hle : Scalar.le l u
  · simp
  · simp only [Res.assert_true, Res.ok_bind, bind_assoc]

/-- **C06** `bsearch` on `[l, u]` panics iff `l > u`; otherwise the probes it makes bisect the interval
(each probe is the midpoint of what earlier answers left), and after `k` probes the remaining
bracket has width `(u-l)/2^k`. -/
theorem C06_bsearch_bisects (orc : OracleBS Ω ℝ) (w : Ω) (l u : ℝ) (opts : Options ℝ)
    (flag : Bool) (k : Nat) (w' : Ω) (ps : List (ℝ × Bool)) (I' : ℝ × ℝ)
    (hrun : bsearch orc.record (w, []) (l, u) opts = .ok ((flag, k), (w', ps), I')) :
    l ≤ u ∧ ps.length = k ∧ Bisects l u ps ∧
      (bracket l u ps).2 - (bracket l u ps).1 = (u - l) / 2 ^ k := by
  unfold bsearch at hrun
  obtain ⟨_, ha, hrun⟩ := Res.bind_eq_ok.1 hrun
  obtain ⟨⟨⟨l', u'⟩, k', w1, h1⟩, hl, hrun⟩ := Res.bind_eq_ok.1 hrun
  simp only [Res.ok.injEq, Prod.mk.injEq] at hrun
  obtain ⟨⟨_, rfl⟩, ⟨rfl, rfl⟩, _⟩ := hrun
  obtain ⟨ps, hp, hk, hb, _, _, _, _⟩ := bsearchLoop_spec orc _ _ _ _ _ _ _ _ _ _ _ _ hl
  simp only [List.nil_append, Nat.zero_add] at hp hk
  subst hp hk
  refine ⟨by simpa [Res.assert_eq_ok] using ha, rfl, hb, bracket_width _ _ _ hb⟩

/-- **C06** (panic) `bsearch` panics on a reversed interval. -/
theorem C06_bsearch_panic (orc : OracleBS Ω ℝ) (w : Ω) (l u : ℝ) (opts : Options ℝ) (h : u < l) :
    bsearch orc w (l, u) opts = .panic := by
  unfold bsearch
  simp [not_le.2 h]

/-- **C06** (no other panic) `bsearch` panics only on a reversed interval or inside the oracle. -/
theorem C06_bsearch_no_panic (orc : OracleBS Ω ℝ) (hq : ∀ w g, orc.assess w g ≠ .panic)
    (w : Ω) (l u : ℝ) (opts : Options ℝ) (h : l ≤ u) : bsearch orc w (l, u) opts ≠ .panic := by
  have hloop : ∀ (m n0 : Nat) (w : Ω) (l u : ℝ), bsearchLoop orc opts.tolerance m n0 w l u ≠ .panic := by
    intro m
    induction m with
    | zero => intros; simp [bsearchLoop]
    | succ m ih =>
      intro n0 w l u
      unfold bsearchLoop
      dsimp only
      split
      · simp
      · cases hq' : orc.assess w (l + (u - l) / nat 2) with
        | panic => exact absurd hq' (hq _ _)
        | ok r =>
          obtain ⟨b, w1⟩ := r
          cases b
          · simpa using ih _ _ _ _
          · simpa using ih _ _ _ _
  unfold bsearch
  have : Scalar.le l u = true := by simpa using h
  simp only [this, Res.assert_true, Res.ok_bind]
  cases hl : bsearchLoop orc opts.tolerance opts.maxIters 0 w l u with
  | panic => exact absurd hl (hloop _ _ _ _ _)
  | ok r => simp

/-- **C06** For an oracle that answers a predicate `P` which is false at `l` and true at `u` (for
monotone `P`: the threshold lies in `[l,u]`), the bracket left by the probes always has its lower end
rejected and its upper end accepted, so the threshold stays bracketed, to within `(u-l)/2^k`. -/
theorem C06_bsearch_brackets (P : ℝ → Prop) (orc : OracleBS Ω ℝ)
    (hP : ∀ w g b w', orc.assess w g = .ok (b, w') → (b = true ↔ P g))
    (w : Ω) (l u : ℝ) (hl : ¬ P l) (hu : P u) (opts : Options ℝ)
    (flag : Bool) (k : Nat) (w' : Ω) (ps : List (ℝ × Bool)) (I' : ℝ × ℝ)
    (hrun : bsearch orc.record (w, []) (l, u) opts = .ok ((flag, k), (w', ps), I')) :
    ¬ P (bracket l u ps).1 ∧ P (bracket l u ps).2 ∧
      ∀ t, (∀ g, P g ↔ t ≤ g) → (bracket l u ps).1 < t ∧ t ≤ (bracket l u ps).2 ∧
        (bracket l u ps).2 - t ≤ (u - l) / 2 ^ k := by
  have hans : ∀ p ∈ ps, (p.2 = true ↔ P p.1) := by
    unfold bsearch at hrun
    obtain ⟨_, ha, hrun⟩ := Res.bind_eq_ok.1 hrun
    obtain ⟨⟨⟨l', u'⟩, k', w1, h1⟩, hl, hrun⟩ := Res.bind_eq_ok.1 hrun
    simp only [Res.ok.injEq, Prod.mk.injEq] at hrun
    obtain ⟨⟨_, rfl⟩, ⟨rfl, rfl⟩, _⟩ := hrun
    have key : ∀ (m n0 : Nat) (w : Ω) (h : List (ℝ × Bool)) (l u : ℝ),
        (∀ p ∈ h, (p.2 = true ↔ P p.1)) →
        bsearchLoop orc.record opts.tolerance m n0 (w, h) l u = .ok ((l', u'), k', (w1, h1)) →
        ∀ p ∈ h1, (p.2 = true ↔ P p.1) := by
      intro m
      induction m with
      | zero =>
        intro n0 w h l u hh hr
        simp only [bsearchLoop, Res.ok.injEq, Prod.mk.injEq] at hr
        obtain ⟨_, _, _, rfl⟩ := hr
        exact hh
      | succ m ih =>
        intro n0 w h l u hh hr
        unfold bsearchLoop at hr
        dsimp only at hr
        split at hr
        · simp only [Res.ok.injEq, Prod.mk.injEq] at hr
          obtain ⟨_, _, _, rfl⟩ := hr
          exact hh
        · obtain ⟨⟨b, w2, h2⟩, hq, hr⟩ := Res.bind_eq_ok.1 hr
          simp only [OracleBS.record] at hq
          obtain ⟨⟨b0, w0⟩, hq0, hq⟩ := Res.bind_eq_ok.1 hq
          simp only [Res.ok.injEq, Prod.mk.injEq] at hq
          obtain ⟨rfl, rfl, rfl⟩ := hq
          have hh' : ∀ p ∈ h ++ [(l + (u - l) / nat 2, b0)], (p.2 = true ↔ P p.1) := by
            intro p hp
            rcases List.mem_append.1 hp with hp | hp
            · exact hh p hp
            · simp only [List.mem_singleton] at hp
              subst hp
              exact hP _ _ _ _ hq0
          simp only at hr
          cases b0
          · exact ih _ _ _ _ _ hh' hr
          · exact ih _ _ _ _ _ hh' hr
    exact key _ _ _ _ _ _ (by simp) hl
  obtain ⟨hlo, hhi⟩ := bracket_mem P l u ps hans hl hu
  have hw := (C06_bsearch_bisects orc w l u opts flag k w' ps I' hrun).2.2.2
  refine ⟨hlo, hhi, fun t ht => ?_⟩
  rw [ht] at hlo hhi
  push Not at hlo
  exact ⟨hlo, hhi, by linarith⟩

/-- **C07** The number of iterations is the least `k` with `(u-l)/2^(k+1) < tol`, capped at
`max_iters`, whatever the oracle answers. -/
theorem C07_bsearch_count (orc : OracleBS Ω ℝ) (w : Ω) (l u : ℝ) (opts : Options ℝ)
    (flag : Bool) (k : Nat) (w' : Ω) (I' : ℝ × ℝ)
    (hrun : bsearch orc w (l, u) opts = .ok ((flag, k), w', I')) :
    k ≤ opts.maxIters ∧ (∀ i < k, opts.tolerance ≤ (u - l) / 2 ^ (i + 1)) ∧
      (k < opts.maxIters → (u - l) / 2 ^ (k + 1) < opts.tolerance) := by
  rw [← C06_bsearch_record_faithful] at hrun
  obtain ⟨⟨⟨f, k1⟩, ⟨w1, h1⟩, I1⟩, hrun', heq⟩ := Res.bind_eq_ok.1 hrun
  simp only [Res.ok.injEq, Prod.mk.injEq] at heq
  obtain ⟨⟨rfl, rfl⟩, rfl, rfl⟩ := heq
  clear hrun
  rename' hrun' => hrun
  unfold bsearch at hrun
  obtain ⟨_, ha, hrun⟩ := Res.bind_eq_ok.1 hrun
  obtain ⟨⟨⟨l', u'⟩, k', w1, h1⟩, hl, hrun⟩ := Res.bind_eq_ok.1 hrun
  simp only [Res.ok.injEq, Prod.mk.injEq] at hrun
  obtain ⟨⟨_, rfl⟩, ⟨rfl, rfl⟩, _⟩ := hrun
  obtain ⟨ps, hp, hk, hb, _, hlen, hall, hend⟩ := bsearchLoop_spec orc _ _ _ _ _ _ _ _ _ _ _ _ hl
  simp only [Nat.zero_add] at hk
  subst hk
  exact ⟨hlen, hall, hend⟩

theorem bracket_upper (l u : ℝ) (hlt : l < u) (ps : List (ℝ × Bool)) (hb : Bisects l u ps) :
    l ≤ (bracket l u ps).1 ∧ (bracket l u ps).1 < (bracket l u ps).2 ∧
    ((bracket l u ps).2 = u ∧ (∀ p ∈ ps, p.2 = false) ∨
     (bracket l u ps).2 < u ∧ ∃ p ∈ ps, p.2 = true) := by
  induction ps using List.reverseRecOn with
  | nil => simp [bracket, hlt]
  | append_singleton ps p ih =>
    have h1 : Bisects l u ps := by
      intro i hi
      have := hb i (by simp; omega)
      rw [List.getElem_append_left hi, List.take_append_of_le_length (by omega)] at this
      exact this
    have h2 := hb ps.length (by simp)
    simp only [List.getElem_append_right (le_refl _), Nat.sub_self, List.getElem_cons_zero,
      List.take_left] at h2
    obtain ⟨i1, i2, i3⟩ := ih h1
    rw [bracket_append]
    obtain ⟨g, b⟩ := p
    simp only at h2
    cases b with
    | true =>
      simp only [bracket]
      refine ⟨i1, by linarith, Or.inr ⟨?_, (g, true), by simp, rfl⟩⟩
      rcases i3 with ⟨i3, _⟩ | ⟨i3, _⟩ <;> linarith
    | false =>
      simp only [bracket]
      refine ⟨by linarith, by linarith, ?_⟩
      rcases i3 with ⟨i3, h⟩ | ⟨i3, p, hp, hp'⟩
      · refine Or.inl ⟨i3, ?_⟩
        intro p hp
        rcases List.mem_append.1 hp with hp | hp
        · exact h p hp
        · simp only [List.mem_singleton] at hp; subst hp; rfl
      · exact Or.inr ⟨i3, p, by simp [hp], hp'⟩

/-- **C08** For a proper interval `l < u` the returned flag is true iff at least one probe was
accepted. -/
theorem C08_bsearch_flag (orc : OracleBS Ω ℝ) (w : Ω) (l u : ℝ) (hlt : l < u) (opts : Options ℝ)
    (flag : Bool) (k : Nat) (w' : Ω) (ps : List (ℝ × Bool)) (I' : ℝ × ℝ)
    (hrun : bsearch orc.record (w, []) (l, u) opts = .ok ((flag, k), (w', ps), I')) :
    flag = true ↔ ∃ p ∈ ps, p.2 = true := by
  unfold bsearch at hrun
  obtain ⟨_, ha, hrun⟩ := Res.bind_eq_ok.1 hrun
  obtain ⟨⟨⟨l', u'⟩, k', w1, h1⟩, hl, hrun⟩ := Res.bind_eq_ok.1 hrun
  simp only [Res.ok.injEq, Prod.mk.injEq] at hrun
  obtain ⟨⟨rfl, rfl⟩, ⟨rfl, rfl⟩, _⟩ := hrun
  obtain ⟨ps, hp, hk, hb, hfin, _, _, _⟩ := bsearchLoop_spec orc _ _ _ _ _ _ _ _ _ _ _ _ hl
  simp only [List.nil_append] at hp
  subst hp
  have hu' : u' = (bracket l u h1).2 := by rw [← hfin]
  obtain ⟨_, _, h⟩ := bracket_upper l u hlt h1 hb
  rw [← hu'] at h
  simp only [Scalar.real_beq, Bool.not_eq_true', decide_eq_false_iff_not]
  rcases h with ⟨h, h'⟩ | ⟨h, h'⟩
  · constructor
    · intro hne; exact absurd h hne
    · rintro ⟨p, hp, hp'⟩; rw [h' p hp] at hp'; simp at hp'
  · exact ⟨fun _ => h', fun _ => h.ne⟩

/-- **C08** (finding) although `intrvl` is passed by `&mut`, the caller's interval is returned
unchanged: the bisected bounds are lost. -/
theorem C08_bsearch_interval_not_updated {α : Type} [Scalar α] (orc : OracleBS Ω α) (w : Ω) (I : α × α)
    (opts : Options α) (r : Bool × Nat) (w' : Ω) (I' : α × α)
    (hrun : bsearch orc w I opts = .ok (r, w', I')) : I' = I := by
  unfold bsearch at hrun
  obtain ⟨l, u⟩ := I
  obtain ⟨_, ha, hrun⟩ := Res.bind_eq_ok.1 hrun
  obtain ⟨⟨⟨l', u'⟩, k', w1⟩, hl, hrun⟩ := Res.bind_eq_ok.1 hrun
  simp only [Res.ok.injEq, Prod.mk.injEq] at hrun
  exact hrun.2.2.symm

/-- Non-vacuity: bisecting `[0, 1]` for the threshold 1/4 with tolerance 1/4 makes two probes,
both accepted (`x ≥ 1/4`), flag `true`. -/
example : bsearch (Ω := Unit × List (ℝ × Bool))
    (OracleBS.record ⟨fun w g => .ok (decide ((1/4 : ℝ) ≤ g), w)⟩) ((), []) (0, 1) ⟨3, 1/4⟩ =
      .ok ((true, 2), ((), [(1/2, true), (1/4, true)]), (0, 1)) := by
  have e1 : (0 : ℝ) + (1 - 0) / nat 2 = 1/2 := by norm_num
  have e2 : (0 : ℝ) + (1/2 - 0) / nat 2 = 1/4 := by norm_num
  have t1 : Scalar.lt (((1 : ℝ) - 0) / nat 2) (1/4) = false := by simp <;> norm_num
  have t2 : Scalar.lt (((1/2 : ℝ) - 0) / nat 2) (1/4) = false := by simp <;> norm_num
  have t3 : Scalar.lt (((1/4 : ℝ) - 0) / nat 2) (1/4) = true := by simp <;> norm_num
  have p1 : decide ((1/4 : ℝ) ≤ 1/2) = true := by norm_num
  have p2 : decide ((1/4 : ℝ) ≤ 1/4) = true := by norm_num
  have l1 : Scalar.le (0 : ℝ) 1 = true := by simp
  have b1 : Scalar.beq (1/4 : ℝ) 1 = false := by simp
  simp only [bsearch, bsearchLoop, OracleBS.record, e1, e2, t1, t2, t3, p1, p2, l1, b1,
    Res.ok_bind, Res.assert_true, if_true, Bool.false_eq_true, if_false, Nat.zero_add,
    List.nil_append, List.singleton_append, Bool.not_false, Nat.reduceAdd]

end Ellalgo

import Verif.Props.InfStart

/-! C85 for the oracles of the crate, its tests, its benchmark and its example. -/

namespace Ellalgo
open Filter

/-- `gamma - f > 0` -/
theorem low_test {f : Chk} (hf : f.NoInf) :
    Scalar.gt (Chk.negInf - f) 0 = false ∧ ∀ᶠ γ in atBot, Scalar.gt (Chk.val γ - f) 0 = false := by
  cases f with
  | bad => exact ⟨rfl, Eventually.of_forall fun _ => rfl⟩
  | inf s => exact absurd rfl (hf s)
  | val x =>
    refine ⟨rfl, ?_⟩
    filter_upwards [eventually_le_atBot x] with γ hγ
    rw [Chk.sub_val, Chk.zero_val, Chk.gt_val]
    simpa using hγ

/-- `f < gamma` -/
theorem high_test {f : Chk} (hf : f.NoInf) : ∀ᶠ γ in atTop, Scalar.lt f (Chk.val γ) = Scalar.lt f Chk.posInf := by
  cases f with
  | bad => exact Eventually.of_forall fun _ => rfl
  | inf s => exact absurd rfl (hf s)
  | val x =>
    filter_upwards [eventually_gt_atTop x] with γ hγ
    rw [Chk.lt_val]
    show decide (x < γ) = true
    simpa using hγ

theorem noInf_one : (1 : Chk).NoInf := Chk.noInf_val 1
theorem noInf_zero : (0 : Chk).NoInf := Chk.noInf_val 0
theorem noInf_neg_one : (-1 : Chk).NoInf := Chk.noInf_val (-1)

theorem noInf_pair {a b : Chk} (ha : a.NoInf) (hb : b.NoInf) : (Arr.ofList [a, b]).All Chk.NoInf := by
  intro v hv
  simp only [Arr.ofList, List.mem_cons, List.not_mem_nil, or_false] at hv
  rcases hv with rfl | rfl
  · exact ha
  · exact hb

theorem idx_cases {x : Arr Chk} (hx : x.All Chk.NoInf) (i : Nat) :
    x.idx i = .panic ∨ ∃ u, x.idx i = .ok u ∧ u.NoInf := by
  have := hx.idx i
  cases h : x.idx i with
  | panic => exact Or.inl rfl
  | ok u => rw [h] at this; exact Or.inr ⟨u, rfl, this⟩

/-- an oracle that fails whatever `gamma` is -/
theorem blank_panic {Ω C : Type} {l : Filter ℝ} {top : Chk} {f : Chk → Res ((C × Bool) × Chk × Ω)} {Q : C → Ω → Prop}
    (h : ∀ g, f g = .panic) :
    (∀ᶠ γ in l, f top = (f (.val γ)).map (answerFromTop top) ∧
      ∀ c s γ' w', f (.val γ) = .ok ((c, s), γ', w') → s = false → γ' = .val γ) ∧
    ∀ c s γ' w', f top = .ok ((c, s), γ', w') → Q c w' := by
  refine ⟨Eventually.of_forall fun γ => ⟨by rw [h, h]; rfl, fun _ _ _ _ h1 => ?_⟩, fun _ _ _ _ h1 => ?_⟩
  · rw [h] at h1; exact absurd h1 (by simp)
  · rw [h] at h1; exact absurd h1 (by simp)

theorem blank_panic_ev {Ω C : Type} {l : Filter ℝ} {top : Chk} {f : Chk → Res ((C × Bool) × Chk × Ω)} {Q : C → Ω → Prop}
    (ht : f top = .panic) (hγ : ∀ᶠ γ in l, f (.val γ) = .panic) :
    (∀ᶠ γ in l, f top = (f (.val γ)).map (answerFromTop top) ∧
      ∀ c s γ' w', f (.val γ) = .ok ((c, s), γ', w') → s = false → γ' = .val γ) ∧
    ∀ c s γ' w', f top = .ok ((c, s), γ', w') → Q c w' := by
  refine ⟨?_, fun _ _ _ _ h1 => ?_⟩
  · filter_upwards [hγ] with γ h
    rw [ht, h]
    exact ⟨rfl, fun _ _ _ _ h1 => by simp at h1⟩
  · rw [ht] at h1; exact absurd h1 (by simp)

/-- an oracle that gives the same answer whatever `gamma` is, without finding a better point -/
theorem blank_cut {Ω C : Type} {l : Filter ℝ} {top : Chk} {f : Chk → Res ((C × Bool) × Chk × Ω)} {Q : C → Ω → Prop}
    {c : C} {w : Ω} (ht : f top = .ok ((c, false), top, w)) (hγ : ∀ᶠ γ in l, f (.val γ) = .ok ((c, false), .val γ, w))
    (hQ : Q c w) :
    (∀ᶠ γ in l, f top = (f (.val γ)).map (answerFromTop top) ∧
      ∀ c s γ' w', f (.val γ) = .ok ((c, s), γ', w') → s = false → γ' = .val γ) ∧
    ∀ c s γ' w', f top = .ok ((c, s), γ', w') → Q c w' := by
  refine ⟨?_, fun _ _ _ _ h1 => ?_⟩
  · filter_upwards [hγ] with γ h
    rw [ht, h]
    refine ⟨rfl, fun _ _ _ _ h1 _ => ?_⟩
    simp only [Res.ok.injEq, Prod.mk.injEq] at h1
    exact h1.2.1.symm
  · rw [ht] at h1
    simp only [Res.ok.injEq, Prod.mk.injEq] at h1
    obtain ⟨⟨rfl, rfl⟩, rfl, rfl⟩ := h1
    exact hQ

/-- an oracle that finds a better point whatever `gamma` is -/
theorem blank_better {Ω C : Type} {l : Filter ℝ} {top f0 : Chk} {f : Chk → Res ((C × Bool) × Chk × Ω)} {Q : C → Ω → Prop}
    {c : C} {w : Ω} (ht : f top = .ok ((c, true), f0, w)) (hγ : ∀ᶠ γ in l, f (.val γ) = .ok ((c, true), f0, w))
    (hQ : Q c w) :
    (∀ᶠ γ in l, f top = (f (.val γ)).map (answerFromTop top) ∧
      ∀ c s γ' w', f (.val γ) = .ok ((c, s), γ', w') → s = false → γ' = .val γ) ∧
    ∀ c s γ' w', f top = .ok ((c, s), γ', w') → Q c w' := by
  refine ⟨?_, fun _ _ _ _ h1 => ?_⟩
  · filter_upwards [hγ] with γ h
    rw [ht, h]
    refine ⟨rfl, fun _ _ _ _ h1 h2 => ?_⟩
    simp only [Res.ok.injEq, Prod.mk.injEq] at h1
    rw [← h1.1.2] at h2
    exact absurd h2 (by simp)
  · rw [ht] at h1
    simp only [Res.ok.injEq, Prod.mk.injEq] at h1
    obtain ⟨⟨rfl, rfl⟩, rfl, rfl⟩ := h1
    exact hQ

/-! ### the maximising examples -/

/-- **C85** (example1)  The oracle of `example1.rs` treats `gamma = -∞` like every low enough finite `gamma`. -/
theorem C85_example1_oracle : (ex1Oracle (α := Chk)).BlankAt atBot .negInf fun _ => True := by
  intro w x _ hx
  show (∀ᶠ γ in atBot, ex1Assess w x _ = (ex1Assess w x (.val γ)).map _ ∧ _) ∧ _
  rcases idx_cases hx 0 with h0 | ⟨u, h0, hu⟩
  · exact blank_panic (f := ex1Assess w x) fun g => by simp only [ex1Assess, h0, Res.panic_bind]
  rcases idx_cases hx 1 with h1 | ⟨v, h1, hv⟩
  · exact blank_panic (f := ex1Assess w x) fun g => by simp only [ex1Assess, h0, h1, Res.panic_bind, Res.ok_bind]
  have hC := noInf_closed
  obtain ⟨t1, t2⟩ := low_test (hC.add hu hv)
  have hf1 := hC.sub (hC.add hu hv) (hC.nat 3)
  have hf2 := hC.add (hC.add (hC.neg hu) hv) hC.one
  cases c1 : Scalar.gt (u + v - nat 3) 0 with
  | true =>
    exact blank_cut (f := ex1Assess w x) (c := (Arr.ofList [1, 1], ⟨u + v - nat 3⟩)) (w := w)
      (by simp only [ex1Assess, h0, h1, Res.ok_bind, c1, if_true])
      (Eventually.of_forall fun γ => by simp only [ex1Assess, h0, h1, Res.ok_bind, c1, if_true])
      ⟨trivial, noInf_pair noInf_one noInf_one, hf1⟩
  | false =>
    cases c2 : Scalar.gt (-u + v + 1) 0 with
    | true =>
      exact blank_cut (f := ex1Assess w x) (c := (Arr.ofList [-1, 1], ⟨-u + v + 1⟩)) (w := w)
        (by simp only [ex1Assess, h0, h1, Res.ok_bind, c1, c2, if_true, Bool.false_eq_true, if_false])
        (Eventually.of_forall fun γ => by simp only [ex1Assess, h0, h1, Res.ok_bind, c1, c2, if_true, Bool.false_eq_true, if_false])
        ⟨trivial, noInf_pair noInf_neg_one noInf_one, hf2⟩
    | false =>
      refine blank_better (f := ex1Assess w x) (c := (Arr.ofList [-1, -1], ⟨0⟩)) (f0 := u + v) (w := w)
        (by simp only [ex1Assess, h0, h1, Res.ok_bind, c1, c2, t1, Bool.false_eq_true, if_false])
        ?_ ⟨trivial, noInf_pair noInf_neg_one noInf_neg_one, noInf_zero⟩
      filter_upwards [t2] with γ hγ
      simp only [ex1Assess, h0, h1, Res.ok_bind, c1, c2, hγ, Bool.false_eq_true, if_false]

theorem cutIf_res (f : Chk) (g : List Chk) :
    cutIf f g = .ok (none, ()) ∨ cutIf f g = .ok (some (Arr.ofList g, ⟨f⟩), ()) := by
  unfold cutIf
  split
  · exact Or.inr rfl
  · exact Or.inl rfl

theorem cutIf_all {f : Chk} {g : List Chk} (hf : f.NoInf) (hg : (Arr.ofList g).All Chk.NoInf) :
    (cutIf f g).All fun p => ∀ c, p.1 = some c → c.1.All Chk.NoInf ∧ c.2.beta.NoInf := by
  rcases cutIf_res f g with h | h
  · rw [h]; intro c hc; simp at hc
  · rw [h]; intro c hc
    simp only [Option.some.injEq] at hc
    subst hc
    exact ⟨hg, hf⟩

theorem rrLoop_all {β : Type} {Q : β → Prop} {lo hi : Int} {body : Int → Unit → Res (Option β × Unit)}
    (h : ∀ i, (body i ()).All fun p => ∀ c, p.1 = some c → Q c) (k : Nat) :
    ∀ idx, (rrLoop lo hi body k idx ()).All fun p => ∀ c, p.1 = some c → Q c := by
  induction k with
  | zero => intro idx c hc; simp at hc
  | succ k ih =>
    intro idx
    unfold rrLoop
    refine (h _).bind ?_
    rintro ⟨r, _⟩ hr
    cases r with
    | some b => exact hr
    | none => exact ih _

theorem cutIf_congr {f f' : Chk} (g : List Chk) (h : Scalar.gt f 0 = false) (h' : Scalar.gt f' 0 = false) :
    cutIf f g = cutIf f' g := by
  unfold cutIf
  rw [h, h']
  rfl

/-- **C85** (example1_rr)  The same for the round-robin oracle of `example1_rr.rs`. -/
theorem C85_example1_rr_oracle : (ex1rrOracle (α := Chk)).BlankAt atBot .negInf fun _ => True := by
  intro w x _ hx
  show (∀ᶠ γ in atBot, ex1rrAssess w x _ = (ex1rrAssess w x (.val γ)).map _ ∧ _) ∧ _
  rcases idx_cases hx 0 with h0 | ⟨u, h0, hu⟩
  · exact blank_panic (f := ex1rrAssess w x) fun g => by simp only [ex1rrAssess, h0, Res.panic_bind]
  rcases idx_cases hx 1 with h1 | ⟨v, h1, hv⟩
  · exact blank_panic (f := ex1rrAssess w x) fun g => by simp only [ex1rrAssess, h0, h1, Res.panic_bind, Res.ok_bind]
  have hC := noInf_closed
  obtain ⟨t1, t2⟩ := low_test (hC.add hu hv)
  have hbody : ∀ᶠ γ in atBot, ex1rrBody u v (u + v) (.val γ) = ex1rrBody u v (u + v) .negInf := by
    filter_upwards [t2] with γ hγ
    funext i _
    simp only [ex1rrBody]
    split
    · rfl
    split
    · rfl
    split
    · exact cutIf_congr _ hγ t1
    · rfl
  have hall : ∀ i, (ex1rrBody u v (u + v) .negInf i ()).All fun p => ∀ c, p.1 = some c → c.1.All Chk.NoInf ∧ c.2.beta.NoInf := by
    intro i
    simp only [ex1rrBody]
    split
    · exact cutIf_all (hC.sub (hC.add hu hv) (hC.nat 3)) (noInf_pair noInf_one noInf_one)
    split
    · exact cutIf_all (hC.add (hC.add (hC.neg hu) hv) hC.one) (noInf_pair noInf_neg_one noInf_one)
    split
    · rw [show cutIf (Chk.negInf - (u + v)) [-1, -1] = .ok (none, ()) by unfold cutIf; rw [t1]; rfl]
      intro c hc; simp at hc
    · trivial
  have hlall := rrLoop_all (lo := 0) (hi := 3) hall 3 w
  cases hl : rrLoop 0 3 (ex1rrBody u v (u + v) .negInf) 3 w () with
  | panic =>
    refine blank_panic_ev (f := ex1rrAssess w x) (by simp only [ex1rrAssess, h0, h1, Res.ok_bind, hl, Res.panic_bind]) ?_
    filter_upwards [hbody] with γ hγ
    simp only [ex1rrAssess, h0, h1, Res.ok_bind, hγ, hl, Res.panic_bind]
  | ok r =>
    obtain ⟨r, i, _⟩ := r
    rw [hl] at hlall
    cases r with
    | some c =>
      refine blank_cut (f := ex1rrAssess w x) (c := c) (w := i) (by simp only [ex1rrAssess, h0, h1, Res.ok_bind, hl]) ?_
        ⟨trivial, hlall c rfl⟩
      filter_upwards [hbody] with γ hγ
      simp only [ex1rrAssess, h0, h1, Res.ok_bind, hγ, hl]
    | none =>
      refine blank_better (f := ex1rrAssess w x) (c := (Arr.ofList [-1, -1], ⟨0⟩)) (f0 := u + v) (w := i)
        (by simp only [ex1rrAssess, h0, h1, Res.ok_bind, hl]) ?_ ⟨trivial, noInf_pair noInf_neg_one noInf_neg_one, noInf_zero⟩
      filter_upwards [hbody] with γ hγ
      simp only [ex1rrAssess, h0, h1, Res.ok_bind, hγ, hl]

/-- **C85** (example4)  The same for the oracle of `example4.rs`. -/
theorem C85_example4_oracle : (ex4Oracle (α := Chk)).BlankAt atBot .negInf fun _ => True := by
  intro w x _ hx
  show (∀ᶠ γ in atBot, ex4Assess w x _ = (ex4Assess w x (.val γ)).map _ ∧ _) ∧ _
  rcases idx_cases hx 0 with h0 | ⟨u, h0, hu⟩
  · exact blank_panic (f := ex4Assess w x) fun g => by simp only [ex4Assess, h0, Res.panic_bind]
  rcases idx_cases hx 1 with h1 | ⟨v, h1, hv⟩
  · exact blank_panic (f := ex4Assess w x) fun g => by simp only [ex4Assess, h0, h1, Res.panic_bind, Res.ok_bind]
  have hC := noInf_closed
  have hf := hC.sub (hC.mul (hC.nat 2) hu) (hC.mul (hC.nat 3) hv)
  obtain ⟨t1, t2⟩ := low_test hf
  set f0 : Chk := nat 2 * u - nat 3 * v with hf0
  have hbody : ∀ᶠ γ in atBot, ex4Body u v f0 (.val γ) = ex4Body u v f0 .negInf := by
    filter_upwards [t2] with γ hγ
    funext i _
    simp only [ex4Body]
    split
    · rfl
    split
    · rfl
    split
    · rfl
    split
    · exact cutIf_congr _ hγ t1
    · rfl
  have hall : ∀ i, (ex4Body u v f0 .negInf i ()).All fun p => ∀ c, p.1 = some c → c.1.All Chk.NoInf ∧ c.2.beta.NoInf := by
    intro i
    simp only [ex4Body]
    split
    · exact cutIf_all (hC.sub (hC.neg hu) hC.one) (noInf_pair noInf_neg_one noInf_zero)
    split
    · exact cutIf_all (hC.sub (hC.neg hv) (hC.nat 2)) (noInf_pair noInf_zero noInf_neg_one)
    split
    · exact cutIf_all (hC.sub (hC.add hu hv) hC.one) (noInf_pair noInf_one noInf_one)
    split
    · rw [show cutIf (Chk.negInf - f0) [-(nat 2), nat 3] = .ok (none, ()) by unfold cutIf; rw [t1]; rfl]
      intro c hc; simp at hc
    · trivial
  have hlall := rrLoop_all (lo := 0) (hi := 4) hall 4 w
  cases hl : rrLoop 0 4 (ex4Body u v f0 .negInf) 4 w () with
  | panic =>
    refine blank_panic_ev (f := ex4Assess w x) (by simp only [ex4Assess, h0, h1, Res.ok_bind, ← hf0, hl, Res.panic_bind]) ?_
    filter_upwards [hbody] with γ hγ
    simp only [ex4Assess, h0, h1, Res.ok_bind, ← hf0, hγ, hl, Res.panic_bind]
  | ok r =>
    obtain ⟨r, i, _⟩ := r
    rw [hl] at hlall
    cases r with
    | some c =>
      refine blank_cut (f := ex4Assess w x) (c := c) (w := i) (by simp only [ex4Assess, h0, h1, Res.ok_bind, ← hf0, hl]) ?_
        ⟨trivial, hlall c rfl⟩
      filter_upwards [hbody] with γ hγ
      simp only [ex4Assess, h0, h1, Res.ok_bind, ← hf0, hγ, hl]
    | none =>
      refine blank_better (f := ex4Assess w x) (c := (Arr.ofList [-(nat 2), nat 3], ⟨0⟩)) (f0 := f0) (w := i)
        (by simp only [ex4Assess, h0, h1, Res.ok_bind, ← hf0, hl]) ?_
        ⟨trivial, noInf_pair (hC.neg (hC.nat 2)) (hC.nat 3), noInf_zero⟩
      filter_upwards [hbody] with γ hγ
      simp only [ex4Assess, h0, h1, Res.ok_bind, ← hf0, hγ, hl]

/-! ### the minimising oracles -/

theorem quad_blank {Ω : Type} {J : Ω → Prop} {o : Ω} {g : Arr Chk} {f : Chk} (ho : J o) (hg : g.All Chk.NoInf) (hf : f.NoInf) :
    (∀ᶠ γ in atTop, quadAnswer o g f Chk.posInf = (quadAnswer o g f (.val γ)).map (answerFromTop .posInf) ∧
      ∀ c s γ' w', quadAnswer o g f (.val γ) = .ok ((c, s), γ', w') → s = false → γ' = .val γ) ∧
    ∀ c s γ' w', quadAnswer o g f Chk.posInf = .ok ((c, s), γ', w') → J w' ∧ c.1.All Chk.NoInf ∧ c.2.beta.NoInf := by
  cases h : Scalar.lt f Chk.posInf with
  | true =>
    refine blank_better (f := quadAnswer o g f) (Q := fun c w' => J w' ∧ c.1.All Chk.NoInf ∧ c.2.beta.NoInf) (c := (g, ⟨f⟩))
      (f0 := f) (w := o) (by simp only [quadAnswer, h, if_true]) ?_ ⟨ho, hg, hf⟩
    filter_upwards [high_test hf] with γ hγ
    simp only [quadAnswer, hγ, h, if_true]
  | false =>
    refine blank_cut (f := quadAnswer o g f) (Q := fun c w' => J w' ∧ c.1.All Chk.NoInf ∧ c.2.beta.NoInf) (c := (g, ⟨f⟩))
      (w := o) (by simp only [quadAnswer, h, Bool.false_eq_true, if_false]) ?_ ⟨ho, hg, hf⟩
    filter_upwards [high_test hf] with γ hγ
    simp only [quadAnswer, hγ, h, Bool.false_eq_true, if_false]

/-- **C85** (`QuadraticOracle`)  The quadratic oracle of the tests treats `gamma = ∞` like every large enough finite `gamma`. -/
theorem C85_quadratic_oracle : (quadOracle (α := Chk)).BlankAt atTop .posInf fun _ => True := by
  intro w x _ hx
  show (∀ᶠ γ in atTop, quadAssess w x _ = (quadAssess w x (.val γ)).map _ ∧ _) ∧ _
  rcases idx_cases hx 0 with h0 | ⟨u, h0, hu⟩
  · exact blank_panic (f := quadAssess w x) fun g => by simp only [quadAssess, h0, Res.panic_bind]
  rcases idx_cases hx 1 with h1 | ⟨v, h1, hv⟩
  · exact blank_panic (f := quadAssess w x) fun g => by simp only [quadAssess, h0, h1, Res.panic_bind, Res.ok_bind]
  have hC := noInf_closed
  simp only [quadOracle, quadAssess, h0, h1, Res.ok_bind]
  exact quad_blank (J := fun _ => True) trivial (noInf_pair (hC.mul (hC.nat 2) hu) (hC.mul (hC.nat 2) hv))
    (hC.add (hC.mul hu hu) (hC.mul hv hv))

/-- **C85** (`KnownOptimalOracle`, `HighDimOracle`) -/
theorem C85_target_oracle : (targetOracle (α := Chk)).BlankAt atTop .posInf (Arr.All Chk.NoInf) := by
  intro w x hw hx
  show (∀ᶠ γ in atTop, targetAssess w x _ = (targetAssess w x (.val γ)).map _ ∧ _) ∧ _
  have hC := noInf_closed
  have hd : (x.sub w).All (Arr.All Chk.NoInf) := hx.zipWith hw fun _ _ => hC.sub
  cases h0 : x.sub w with
  | panic => exact blank_panic (f := targetAssess w x) fun g => by simp only [targetAssess, h0, Res.panic_bind]
  | ok d =>
    rw [h0] at hd
    have hd : d.All Chk.NoInf := hd
    have hf := hd.dot hC hd
    cases h1 : d.dot d with
    | panic => exact blank_panic (f := targetAssess w x) fun g => by simp only [targetAssess, h0, h1, Res.panic_bind, Res.ok_bind]
    | ok f =>
      rw [h1] at hf
      simp only [targetOracle, targetAssess, h0, h1, Res.ok_bind]
      exact quad_blank (J := Arr.All Chk.NoInf) hw (hd.smul hC (hC.nat 2)) hf

/-- **C85** (`BenchOracle`) -/
theorem C85_bench_oracle : (benchOracle (α := Chk)).BlankAt atTop .posInf fun _ => True := by
  intro w x _ hx
  show (∀ᶠ γ in atTop, benchAssess w x _ = (benchAssess w x (.val γ)).map _ ∧ _) ∧ _
  have hC := noInf_closed
  have hf := hx.dot hC hx
  cases h1 : x.dot x with
  | panic => exact blank_panic (f := benchAssess w x) fun g => by simp only [benchAssess, h1, Res.panic_bind]
  | ok f =>
    rw [h1] at hf
    simp only [benchOracle, benchAssess, h1, Res.ok_bind]
    exact quad_blank (J := fun _ => True) trivial (hx.smul hC (hC.nat 2)) hf

/-- **C85** (`IllConditionedOracle`) -/
theorem C85_ill_conditioned_oracle : (illOracle (α := Chk)).BlankAt atTop .posInf Chk.NoInf := by
  intro w x hw hx
  show (∀ᶠ γ in atTop, illAssess w x _ = (illAssess w x (.val γ)).map _ ∧ _) ∧ _
  rcases idx_cases hx 0 with h0 | ⟨u, h0, hu⟩
  · exact blank_panic (f := illAssess w x) fun g => by simp only [illAssess, h0, Res.panic_bind]
  rcases idx_cases hx 1 with h1 | ⟨v, h1, hv⟩
  · exact blank_panic (f := illAssess w x) fun g => by simp only [illAssess, h0, h1, Res.panic_bind, Res.ok_bind]
  have hC := noInf_closed
  simp only [illOracle, illAssess, h0, h1, Res.ok_bind]
  have he := hC.div hC.one hw
  have h1e := hC.add hC.one he
  have hi := hC.div hC.one he
  exact quad_blank (J := Chk.NoInf) hw (noInf_pair (hC.mul (hC.mul (hC.nat 2) h1e) hu) (hC.mul (hC.mul (hC.nat 2) hi) hv))
    (hC.add (hC.mul h1e (hC.mul hu hu)) (hC.mul hi (hC.mul hv hv)))

/-- **C85** (`ExtremeScaleOracle`) -/
theorem C85_extreme_scale_oracle : (scaleOracle (α := Chk)).BlankAt atTop .posInf Chk.NoInf := by
  intro w x hw hx
  show (∀ᶠ γ in atTop, scaleAssess w x _ = (scaleAssess w x (.val γ)).map _ ∧ _) ∧ _
  rcases idx_cases hx 0 with h0 | ⟨u, h0, hu⟩
  · exact blank_panic (f := scaleAssess w x) fun g => by simp only [scaleAssess, h0, Res.panic_bind]
  rcases idx_cases hx 1 with h1 | ⟨v, h1, hv⟩
  · exact blank_panic (f := scaleAssess w x) fun g => by simp only [scaleAssess, h0, h1, Res.panic_bind, Res.ok_bind]
  have hC := noInf_closed
  simp only [scaleOracle, scaleAssess, h0, h1, Res.ok_bind]
  exact quad_blank (J := Chk.NoInf) hw (noInf_pair (hC.mul (hC.mul (hC.nat 2) hw) hu) (hC.mul (hC.nat 2) hv))
    (hC.add (hC.mul hw (hC.mul hu hu)) (hC.mul hv hv))

theorem new_all (n : Nat) : (Arr.new n : Arr Chk).All Chk.NoInf := by
  intro v hv
  simp only [Arr.new, List.mem_replicate] at hv
  rw [hv.2]; exact noInf_zero

/-- **C85** (portfolio example) -/
theorem C85_portfolio_oracle : (Portfolio.oracle (α := Chk)).BlankAt atTop .posInf (Portfolio.All Chk.NoInf) := by
  intro p x hp hx
  show (∀ᶠ γ in atTop, p.assess x _ = (p.assess x (.val γ)).map _ ∧ _) ∧ _
  have hC := noInf_closed
  have hp0 := hp
  obtain ⟨hr, hR, hm, hb⟩ := hp
  set n := x.len with hn
  have a0 : (forRange 0 n (0 : Chk) fun i acc => do
      let x ← x.idx i
      .ok (acc + x)).All Chk.NoInf :=
    forRange_all hC.zero fun i s hs => (hx.idx i).bind fun u hu => hC.add hs hu
  cases h0 : (forRange 0 n (0 : Chk) fun i acc => do
      let x ← x.idx i
      .ok (acc + x)) with
  | panic => exact blank_panic (f := p.assess x) fun g => by simp only [Portfolio.assess, ← hn, h0, Res.panic_bind]
  | ok sum =>
  rw [h0] at a0
  have a0 : sum.NoInf := a0
  cases c0 : Scalar.gt (sum - p.budget) 0 with
  | true =>
    have a1 : (forRange 0 n (Arr.new n : Arr Chk) fun i g => g.setIdx i 1).All (Arr.All Chk.NoInf) :=
      forRange_all (new_all n) fun i s hs => hs.setIdx _ hC.one
    cases h1 : (forRange 0 n (Arr.new n : Arr Chk) fun i g => g.setIdx i 1) with
    | panic =>
      exact blank_panic (f := p.assess x) fun g => by simp only [Portfolio.assess, ← hn, h0, Res.ok_bind, c0, if_true, h1, Res.panic_bind]
    | ok g1 =>
      rw [h1] at a1
      exact blank_cut (f := p.assess x) (c := (g1, ⟨sum - p.budget⟩)) (w := p)
        (by simp only [Portfolio.assess, ← hn, h0, Res.ok_bind, c0, if_true, h1])
        (Eventually.of_forall fun γ => by simp only [Portfolio.assess, ← hn, h0, Res.ok_bind, c0, if_true, h1])
        ⟨hp0, a1, hC.sub a0 hb⟩
  | false =>
  have a1 : (forRange 0 n (0 : Chk) fun i acc =>
      forRange 0 n acc fun j acc => do
        let xi ← x.idx i
        let m ← riskAt p i j
        let xj ← x.idx j
        .ok (acc + xi * m * xj)).All Chk.NoInf :=
    forRange_all hC.zero fun i s hs => forRange_all hs fun j s hs => (hx.idx i).bind fun u hu => (hR.idx _).bind fun m hm =>
      (hx.idx j).bind fun v hv => hC.add hs (hC.mul (hC.mul hu hm) hv)
  cases h1 : (forRange 0 n (0 : Chk) fun i acc =>
      forRange 0 n acc fun j acc => do
        let xi ← x.idx i
        let m ← riskAt p i j
        let xj ← x.idx j
        .ok (acc + xi * m * xj)) with
  | panic =>
    exact blank_panic (f := p.assess x) fun g => by
      simp only [Portfolio.assess, ← hn, h0, Res.ok_bind, c0, Bool.false_eq_true, if_false, h1, Res.panic_bind]
  | ok risk =>
  rw [h1] at a1
  have a1 : risk.NoInf := a1
  cases c1 : Scalar.gt (risk - p.maxRisk) 0 with
  | true =>
    have a2 : (forRange 0 n (Arr.new n : Arr Chk) fun i g => do
        let sum ← forRange 0 n (0 : Chk) fun j acc => do
          let a ← riskAt p i j
          let b ← riskAt p j i
          let xj ← x.idx j
          .ok (acc + (a + b) * xj)
        g.setIdx i sum).All (Arr.All Chk.NoInf) := by
      refine forRange_all (new_all n) fun i g hg => Res.All.bind (P := Chk.NoInf) ?_ fun s hs => hg.setIdx _ hs
      exact forRange_all hC.zero fun j s hs => (hR.idx _).bind fun a ha => (hR.idx _).bind fun b hb =>
        (hx.idx j).bind fun v hv => hC.add hs (hC.mul (hC.add ha hb) hv)
    cases h2 : (forRange 0 n (Arr.new n : Arr Chk) fun i g => do
        let sum ← forRange 0 n (0 : Chk) fun j acc => do
          let a ← riskAt p i j
          let b ← riskAt p j i
          let xj ← x.idx j
          .ok (acc + (a + b) * xj)
        g.setIdx i sum) with
    | panic =>
      exact blank_panic (f := p.assess x) fun g => by
        simp only [Portfolio.assess, ← hn, h0, Res.ok_bind, c0, Bool.false_eq_true, if_false, h1, c1, if_true, h2, Res.panic_bind]
    | ok g2 =>
      rw [h2] at a2
      exact blank_cut (f := p.assess x) (c := (g2, ⟨risk - p.maxRisk⟩)) (w := p)
        (by simp only [Portfolio.assess, ← hn, h0, Res.ok_bind, c0, Bool.false_eq_true, if_false, h1, c1, if_true, h2])
        (Eventually.of_forall fun γ => by
          simp only [Portfolio.assess, ← hn, h0, Res.ok_bind, c0, Bool.false_eq_true, if_false, h1, c1, if_true, h2])
        ⟨hp0, a2, hC.sub a1 hm⟩
  | false =>
  have a2 := hr.dot hC hx
  cases h2 : p.expectedReturns.dot x with
  | panic =>
    exact blank_panic (f := p.assess x) fun g => by
      simp only [Portfolio.assess, ← hn, h0, Res.ok_bind, c0, Bool.false_eq_true, if_false, h1, c1, h2, Res.panic_bind]
  | ok ret =>
  rw [h2] at a2
  have a2 : (-ret).NoInf := hC.neg a2
  have hev := high_test a2
  cases c2 : Scalar.lt (-ret) Chk.posInf with
  | false =>
    rw [c2] at hev
    refine blank_cut (f := p.assess x) (c := (Arr.new n, ⟨0⟩)) (w := p)
      (by simp only [Portfolio.assess, ← hn, h0, Res.ok_bind, c0, Bool.false_eq_true, if_false, h1, c1, h2, c2]) ?_
      ⟨hp0, new_all n, noInf_zero⟩
    filter_upwards [hev] with γ hγ
    simp only [Portfolio.assess, ← hn, h0, Res.ok_bind, c0, Bool.false_eq_true, if_false, h1, c1, h2, hγ]
  | true =>
    rw [c2] at hev
    have a3 : (forRange 0 n (Arr.new n : Arr Chk) fun i g => do
        let r ← p.expectedReturns.idx i
        g.setIdx i (-r)).All (Arr.All Chk.NoInf) :=
      forRange_all (new_all n) fun i g hg => (hr.idx i).bind fun r hr => hg.setIdx _ (hC.neg hr)
    cases h3 : (forRange 0 n (Arr.new n : Arr Chk) fun i g => do
        let r ← p.expectedReturns.idx i
        g.setIdx i (-r)) with
    | panic =>
      refine blank_panic_ev (f := p.assess x) (by
        simp only [Portfolio.assess, ← hn, h0, Res.ok_bind, c0, Bool.false_eq_true, if_false, h1, c1, h2, c2, if_true, h3, Res.panic_bind]) ?_
      filter_upwards [hev] with γ hγ
      simp only [Portfolio.assess, ← hn, h0, Res.ok_bind, c0, Bool.false_eq_true, if_false, h1, c1, h2, hγ, if_true, h3, Res.panic_bind]
    | ok g3 =>
      rw [h3] at a3
      refine blank_better (f := p.assess x) (c := (g3, ⟨0⟩)) (f0 := -ret) (w := p) (by
        simp only [Portfolio.assess, ← hn, h0, Res.ok_bind, c0, Bool.false_eq_true, if_false, h1, c1, h2, c2, if_true, h3]) ?_
        ⟨hp0, a3, noInf_zero⟩
      filter_upwards [hev] with γ hγ
      simp only [Portfolio.assess, ← hn, h0, Res.ok_bind, c0, Bool.false_eq_true, if_false, h1, c1, h2, hγ, if_true, h3]

/-! ### the oracles of the crate that read or write `gamma` -/

/-- **C85** (max-cut)  With finite weights, `MaxcutOracle` treats `gamma = -∞` like every low enough finite `gamma`. -/
theorem C85_maxcut_oracle : (MaxcutOracle.oracle (α := Chk)).BlankAt atBot .negInf
    fun o => o.weights.All fun v => ∃ x, v = .val x := by
  intro o x ho hx
  show (∀ᶠ γ in atBot, o.assess x _ = (o.assess x (.val γ)).map _ ∧ _) ∧ _
  have hC := noInf_closed
  have ho' : o.weights.All Chk.NoInf := fun v hv => by obtain ⟨y, rfl⟩ := ho v hv; exact Chk.noInf_val y
  have a0 : (o.cutValue (maxcutSigns x)).All fun v => ∃ y, v = .val y := by
    unfold MaxcutOracle.cutValue
    refine forRange_all ⟨0, rfl⟩ fun i s hs => forRange_all hs fun j s hs => ?_
    refine Res.All.bind (P := fun _ => True) (by cases (maxcutSigns x).idx i <;> trivial) fun xi _ =>
      Res.All.bind (P := fun _ => True) (by cases (maxcutSigns x).idx j <;> trivial) fun xj _ => ?_
    split
    · refine (ho.idx _).bind fun w hw => ?_
      obtain ⟨a, rfl⟩ := hs
      obtain ⟨b, rfl⟩ := hw
      exact ⟨a + b, rfl⟩
    · exact hs
  have a1 : (o.grad (maxcutSigns x)).All (Arr.All Chk.NoInf) := by
    unfold MaxcutOracle.grad
    refine Res.All.bind (P := Arr.All Chk.NoInf) ?_ fun g hg => hg.smul hC (hC.nat 2)
    refine forRange_all (new_all _) fun i g hg => forRange_all hg fun j g hg => ?_
    refine Res.All.bind (P := fun _ => True) (by cases (maxcutSigns x).idx i <;> trivial) fun xi _ =>
      Res.All.bind (P := fun _ => True) (by cases (maxcutSigns x).idx j <;> trivial) fun xj _ => ?_
    split
    · exact (ho'.idx _).bind fun w hw => (hg.idx _).bind fun old hold => hg.setIdx _ (hC.add hold hw)
    · exact hg
  cases h0 : o.cutValue (maxcutSigns x) with
  | panic => exact blank_panic (f := o.assess x) fun g => by simp only [MaxcutOracle.assess, h0, Res.panic_bind]
  | ok cv =>
  rw [h0] at a0
  obtain ⟨y, rfl⟩ := a0
  cases h1 : o.grad (maxcutSigns x) with
  | panic => exact blank_panic (f := o.assess x) fun g => by simp only [MaxcutOracle.assess, h0, h1, Res.panic_bind, Res.ok_bind]
  | ok gr =>
  rw [h1] at a1
  have a1 : gr.All Chk.NoInf := a1
  refine blank_better (f := o.assess x) (c := (gr.neg, ⟨-Chk.val y⟩)) (f0 := .val y) (w := o) (by
    have : Scalar.gt (Chk.val y) Chk.negInf = true := rfl
    simp only [MaxcutOracle.assess, h0, h1, Res.ok_bind, this, if_true]) ?_
    ⟨ho, a1.map fun v hv => hC.neg hv, Chk.noInf_val _⟩
  filter_upwards [eventually_lt_atBot y] with γ hγ
  have : Scalar.gt (Chk.val y) (Chk.val γ) = true := by rw [Chk.gt_val]; simpa using hγ
  simp only [MaxcutOracle.assess, h0, h1, Res.ok_bind, this, if_true]

theorem Arr.All.row {α : Type} {P : α → Prop} {a : Arr α} (h : a.All P) (i : Nat) : (a.row i).All (Arr.All P) := by
  unfold Arr.row
  refine Res.All.assert (Res.All.assert (Res.All.assert ?_))
  intro v hv
  exact h v (List.mem_of_mem_drop (List.mem_of_mem_take hv))

/-- **C85** (SVM)  `SvmOracle` never reads `gamma`: any infinite start is like any finite one. -/
theorem C85_svm_oracle (l : Filter ℝ) (top : Chk) :
    (SvmOracle.oracle (α := Chk)).BlankAt l top fun o => o.data.All Chk.NoInf := by
  intro o x ho hx
  have hC := noInf_closed
  have e : ∀ g, o.assess x g = o.assess x top := fun _ => rfl
  have hall : (o.assess x top).All fun r => r.1.2 = true ∧ r.2.2 = o ∧ r.1.1.1.All Chk.NoInf ∧ r.1.1.2.beta.NoInf := by
    unfold SvmOracle.assess
    refine (mapM_all (P := Chk.NoInf) (fun i => hx.idx i) _).bind fun wd hwd => (hx.idx _).bind fun b hb => ?_
    refine Res.All.bind (P := fun r : Option Chk × Nat => ∀ m, r.1 = some m → m.NoInf) ?_ ?_
    · unfold SvmOracle.search
      refine forRange_all (by intro m hm; simp at hm) fun i st hst => ?_
      obtain ⟨mv, mi⟩ := st
      refine Res.All.bind (P := fun _ => True) (by cases o.labels[i]? <;> trivial) fun y _ => (ho.row i).bind fun xi hxi => ?_
      refine Arr.All.dot hC (a := ⟨wd, o.nfeat, 0⟩) hwd hxi |>.bind fun d hd => ?_
      have hm : (Scalar.ofInt y * (d + b) : Chk).NoInf := hC.mul (Chk.noInf_val _) (hC.add hd hb)
      have hsome : ∀ m, some (Scalar.ofInt y * (d + b) : Chk) = some m → m.NoInf := by
        intro m h
        simp only [Option.some.injEq] at h
        exact h ▸ hm
      cases mv with
      | none =>
        simp only
        split
        · exact hsome
        · exact hst
      | some m0 =>
        simp only
        split
        · exact hsome
        · exact hst
    · rintro ⟨mv, mi⟩ hmv
      cases mv with
      | none => exact ⟨rfl, rfl, new_all _, noInf_zero⟩
      | some m =>
        simp only
        split
        · exact ⟨rfl, rfl, new_all _, noInf_zero⟩
        · refine Res.All.bind (P := fun _ => True) (by cases o.labels[mi]? <;> trivial) fun y _ => (ho.row mi).bind fun xi hxi => ?_
          refine ⟨rfl, rfl, ?_, hmv m rfl⟩
          intro v hv
          simp only [Arr.ofList, List.mem_append, List.mem_map, List.mem_singleton] at hv
          rcases hv with ⟨u, hu, rfl⟩ | rfl
          · exact hC.mul (hC.neg (Chk.noInf_val _)) (hxi u hu)
          · exact hC.neg (Chk.noInf_val _)
  show (∀ᶠ γ in l, o.assess x top = (o.assess x (.val γ)).map _ ∧ _) ∧ _
  cases h : o.assess x top with
  | panic =>
    rw [← h]
    exact blank_panic (f := o.assess x) fun g => by rw [e g, h]
  | ok r =>
    rw [h] at hall
    obtain ⟨⟨c, sh⟩, f0, w⟩ := r
    obtain ⟨h1, h2, h3, h4⟩ := hall
    simp only at h1 h2 h3 h4
    subst h1 h2
    rw [← h]
    exact blank_better (f := w.assess x) (c := c) (f0 := f0) (w := w) h (Eventually.of_forall fun γ => by rw [e, h]) ⟨ho, h3, h4⟩

end Ellalgo

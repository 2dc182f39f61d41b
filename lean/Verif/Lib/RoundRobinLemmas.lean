import Verif.Model.RoundRobin

/-! The round-robin loop visits every index of its range exactly once, from any starting position. -/

namespace Ellalgo
variable {σ β : Type}

/-- Rule for the round-robin loop.  `P V s` holds when the indices in `V` have been visited without an early return. -/
theorem rrLoop_spec {lo hi : Int} {body : Int → σ → Res (Option β × σ)} (P : (Int → Prop) → σ → Prop)
    (Q : Int → β → σ → Prop) {idx : Int} {s : σ} (hlo : lo - 1 ≤ idx) (hhi : lo < hi → idx < hi)
    (h0 : P (fun _ => False) s)
    (hstep : ∀ V i s, lo ≤ i → i < hi → P V s → ∃ r s', body i s = .ok (r, s') ∧
      (r = none → P (fun j => V j ∨ j = i) s') ∧ (∀ b, r = some b → Q i b s'))
    (hmono : ∀ V W s, (∀ j, lo ≤ j → j < hi → (V j ↔ W j)) → P V s → P W s) :
    ∃ r idx' s', rrLoop lo hi body (hi - lo).toNat idx s = .ok (r, idx', s') ∧
      (lo < hi → lo ≤ idx' ∧ idx' < hi) ∧ (hi ≤ lo → idx' = idx) ∧
      (r = none → P (fun j => lo ≤ j ∧ j < hi) s') ∧
      (∀ b, r = some b → lo ≤ idx' ∧ idx' < hi ∧ Q idx' b s') := by
  by_cases hlh : lo < hi
  · have key : ∀ (k : Nat) (V : Int → Prop) (idx : Int) (s : σ), (k : Int) ≤ hi - lo → lo - 1 ≤ idx → idx < hi →
        (k = 0 → lo ≤ idx) → P V s →
        (∀ j, lo ≤ j → j < hi → (V j ↔ ¬ ((idx < j ∧ j ≤ idx + k) ∨ j ≤ idx + k - (hi - lo)))) →
        ∃ r idx' s', rrLoop lo hi body k idx s = .ok (r, idx', s') ∧ lo ≤ idx' ∧ idx' < hi ∧
          (r = none → P (fun j => lo ≤ j ∧ j < hi) s') ∧ (∀ b, r = some b → Q idx' b s') := by
      intro k
      induction k with
      | zero =>
        intro V idx s _ h1 h2 h3 hP hV
        refine ⟨none, idx, s, rfl, h3 rfl, h2, fun _ => hmono _ _ _ (fun j hj1 hj2 => ?_) hP, fun b hb => by simp at hb⟩
        rw [hV j hj1 hj2]
        constructor
        · intro _; exact ⟨hj1, hj2⟩
        · intro _; simp only [Nat.cast_zero]; omega
      | succ k ih =>
        intro V idx s hk h1 h2 _ hP hV
        simp only [rrLoop]
        obtain ⟨i, hdef⟩ : ∃ i, i = if idx + 1 = hi then lo else idx + 1 := ⟨_, rfl⟩
        rw [← hdef]
        have hi1 : lo ≤ i := by rw [hdef]; split <;> omega
        have hi2 : i < hi := by rw [hdef]; split <;> omega
        obtain ⟨r, s', hb, hn, hs⟩ := hstep V i s hi1 hi2 hP
        rw [hb, Res.ok_bind]
        cases r with
        | some b => exact ⟨some b, i, s', rfl, hi1, hi2, fun h => by simp at h, fun b' hb' => hs b' hb'⟩
        | none =>
          refine ih (fun j => V j ∨ j = i) i s' (by push_cast at hk; omega) (by omega) hi2 (fun _ => hi1) (hn rfl) ?_
          intro j hj1 hj2
          rw [hV j hj1 hj2]
          push_cast at hk ⊢
          split at hdef <;> constructor <;> intro h <;> omega
    obtain ⟨r, idx', s', h1, h2, h3, h4, h5⟩ := key (hi - lo).toNat (fun _ => False) idx s (by omega) hlo (hhi hlh)
      (by intro h; omega) h0 (by
        intro j hj1 hj2
        rw [Int.toNat_of_nonneg (by omega)]
        simp only [false_iff, not_not]
        omega)
    exact ⟨r, idx', s', h1, fun _ => ⟨h2, h3⟩, fun h => by omega, h4, fun b hb => ⟨h2, h3, h5 b hb⟩⟩
  · have : (hi - lo).toNat = 0 := by omega
    rw [this]
    exact ⟨none, idx, s, rfl, fun h => absurd h hlh, fun _ => rfl,
      fun _ => hmono _ _ _ (fun j h1 h2 => by omega) h0, fun b hb => by simp at hb⟩

/-- Same for a stateless body given by a total test `t`. -/
theorem rrLoop_test {lo hi : Int} {body : Int → Unit → Res (Option β × Unit)} {t : Int → Option β} {idx : Int}
    (hlo : lo - 1 ≤ idx) (hhi : lo < hi → idx < hi)
    (hb : ∀ i, lo ≤ i → i < hi → body i () = .ok (t i, ())) :
    ∃ r idx', rrLoop lo hi body (hi - lo).toNat idx () = .ok (r, idx', ()) ∧
      (lo < hi → lo ≤ idx' ∧ idx' < hi) ∧ (hi ≤ lo → idx' = idx) ∧
      (r = none → ∀ j, lo ≤ j → j < hi → t j = none) ∧
      (∀ b, r = some b → lo ≤ idx' ∧ idx' < hi ∧ t idx' = some b) := by
  obtain ⟨r, idx', s', h1, h2, h3, h4, h5⟩ := rrLoop_spec (lo := lo) (hi := hi) (body := body)
    (fun V _ => ∀ j, lo ≤ j → j < hi → V j → t j = none) (fun i b _ => t i = some b) (idx := idx) (s := ()) hlo hhi
    (by intro j _ _ h; exact h.elim)
    (by
      intro V i s hi1 hi2 hV
      refine ⟨t i, (), hb i hi1 hi2, ?_, fun b hb => hb⟩
      rintro hn j hj1 hj2 (hj | rfl)
      · exact hV j hj1 hj2 hj
      · exact hn)
    (by intro V W s h hV j hj1 hj2 hj; exact hV j hj1 hj2 ((h j hj1 hj2).2 hj))
  exact ⟨r, idx', h1, h2, h3, fun hr j hj1 hj2 => h4 hr j hj1 hj2 ⟨hj1, hj2⟩, h5⟩

end Ellalgo

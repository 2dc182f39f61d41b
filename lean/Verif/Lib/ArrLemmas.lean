import Verif.Lib.Rep

/-! Entry-wise description of the `Arr` operations. -/

namespace Ellalgo
variable {α : Type} [Scalar α]

theorem outer_spec {a b : Arr α} {m n : Nat} {v w : Nat → α} (ha : IsVec a m v) (hb : IsVec b n w) :
    ∃ c, a.outer b = .ok c ∧ IsMat c m n (fun i j => v i * w j) := by
  unfold Arr.outer
  simp only [ha.is2d, hb.is2d, Bool.not_false, Bool.and_self, Res.assert_true, Res.ok_bind, ha.len', hb.len']
  refine forRange_post (fun i (d : Arr α) => IsMat d m n (fun p q => if p < i then v p * w q else 0))
    (Nat.zero_le m) ((isMat_zeros m n).congr (by intros; simp)) ?_
    (fun d hd => hd.congr (by intro p q hp hq; simp [hp]))
  intro i d _ hi hd
  refine forRange_post (fun j (d : Arr α) => IsMat d m n
      (fun p q => if p < i ∨ (p = i ∧ q < j) then v p * w q else 0))
    (Nat.zero_le n) (hd.congr (by intro p q _ _; simp)) ?_
    (fun d hd => hd.congr (by
      intro p q hp hq
      by_cases h : p < i + 1
      · rw [if_pos h, if_pos (by omega)]
      · rw [if_neg h, if_neg (by omega)]))
  intro j d' _ hj hd'
  rw [ha.idx hi, hb.idx hj]
  simp only [Res.ok_bind]
  obtain ⟨d2, h1, h2⟩ := hd'.setIdx hi hj (v i * w j)
  refine ⟨d2, h1, h2.congr ?_⟩
  intro p q _ _
  simp only [upd2]
  by_cases h : p = i ∧ q = j
  · rw [if_pos h, if_pos (by omega), h.1, h.2]
  · rw [if_neg h]
    by_cases h' : p < i ∨ (p = i ∧ q < j)
    · rw [if_pos h', if_pos (by omega)]
    · rw [if_neg h', if_neg (by omega)]

/-- entries after `rank_one_update`: lower triangle computed, mirrored above -/
def rankOneEntry (m : Nat → Nat → α) (g : Nat → α) (r : α) (i j : Nat) : α :=
  if j ≤ i then m i j + r * g i * g j else m j i + r * g j * g i

theorem rankOneEntry_symm (m : Nat → Nat → α) (g : Nat → α) (r : α) (i j : Nat) :
    rankOneEntry m g r i j = rankOneEntry m g r j i := by
  unfold rankOneEntry
  rcases Nat.lt_trichotomy i j with h | h | h
  · rw [if_neg (by omega), if_pos (by omega)]
  · subst h; rfl
  · rw [if_pos (by omega), if_neg (by omega)]

theorem rankOneUpdate_spec {n : Nat} {mq gT : Arr α} {m : Nat → Nat → α} {g : Nat → α}
    (hm : IsMat mq n n m) (hg : IsVec gT n g) (r : α) (hn : 0 < n) :
    ∃ y, mq.rankOneUpdate r gT = .ok y ∧ IsMat y n n (rankOneEntry m g r) := by
  unfold Arr.rankOneUpdate
  simp only [hm.is2d hn, hg.is2d, Bool.not_false, Res.assert_true, Res.ok_bind, hm.rows, hg.len',
    beq_self_eq_true]
  refine forRange_post
    (fun i (a : Arr α) => IsMat a n n (fun p q => if p < i ∧ q < i then rankOneEntry m g r p q else m p q))
    (s := mq) (Nat.zero_le n) (hm.congr (by intros; simp)) ?_ ?_
  · intro i s _ hi hs
    rw [hg.idx hi]
    simp only [Res.ok_bind]
    refine forRange_post
      (fun j (a : Arr α) => IsMat a n n (fun p q =>
        if (p < i ∧ q < i) ∨ (p = i ∧ q < j) ∨ (q = i ∧ p < j) then rankOneEntry m g r p q else m p q))
      (s := s) (Nat.zero_le (i + 1)) (hs.congr (by intros; simp)) ?_ ?_
    · intro j t _ hj ht
      rw [hg.idx (by omega : j < n)]
      simp only [Res.ok_bind]
      rw [ht.idx hi (by omega : j < n), if_neg (by omega)]
      simp only [Res.ok_bind]
      obtain ⟨t1, h1, ht1⟩ := ht.setIdx hi (by omega : j < n) (m i j + r * g i * g j)
      rw [h1]
      simp only [Res.ok_bind]
      have hnew : rankOneEntry m g r i j = m i j + r * g i * g j := by rw [rankOneEntry, if_pos (by omega)]
      by_cases hij : i = j
      · subst hij
        simp only [bne_self_eq_false, Bool.false_eq_true, if_false]
        refine ⟨t1, rfl, ht1.congr ?_⟩
        intro p q _ _
        simp only [upd2]
        by_cases h : p = i ∧ q = i
        · rw [if_pos h, if_pos (by omega), h.1, h.2, hnew]
        · rw [if_neg h]
          by_cases h' : (p < i ∧ q < i) ∨ (p = i ∧ q < i) ∨ (q = i ∧ p < i)
          · rw [if_pos h', if_pos (by omega)]
          · rw [if_neg h', if_neg (by omega)]
      · have hb : (i != j) = true := by simpa using hij
        rw [if_pos hb, ht1.idx hi (by omega : j < n)]
        simp only [Res.ok_bind, upd2, and_self, if_true]
        obtain ⟨t2, h2, ht2⟩ := ht1.setIdx (by omega : j < n) hi (m i j + r * g i * g j)
        refine ⟨t2, h2, ht2.congr ?_⟩
        intro p q _ _
        simp only [upd2]
        by_cases h : p = j ∧ q = i
        · rw [if_pos h, if_pos (by omega), h.1, h.2, rankOneEntry_symm, hnew]
        · rw [if_neg h]
          by_cases h3 : p = i ∧ q = j
          · rw [if_pos h3, if_pos (by omega), h3.1, h3.2, hnew]
          · rw [if_neg h3]
            by_cases h' : (p < i ∧ q < i) ∨ (p = i ∧ q < j) ∨ (q = i ∧ p < j)
            · rw [if_pos h', if_pos (by omega)]
            · rw [if_neg h', if_neg (by omega)]
    · intro s' h2
      refine h2.congr ?_
      intro p q _ _
      by_cases h : p < i + 1 ∧ q < i + 1
      · rw [if_pos h, if_pos (by omega)]
      · rw [if_neg h, if_neg (by omega)]
  · intro y h2
    exact h2.congr (by intro p q hp hq; rw [if_pos ⟨hp, hq⟩])

theorem fromDiag_spec {v : Arr α} {n : Nat} {d : Nat → α} (hv : IsVec v n d) :
    ∃ y, Arr.fromDiag v = .ok y ∧ IsMat y n n (fun i j => if i = j then d i else 0) := by
  unfold Arr.fromDiag
  simp only [hv.is2d, Bool.not_false, Res.assert_true, Res.ok_bind, hv.len']
  refine forRange_post (fun i (a : Arr α) => IsMat a n n (fun p q => if p = q ∧ p < i then d p else 0))
    (Nat.zero_le n) ((isMat_zeros n n).congr (by intros; simp)) ?_
    (fun y hy => hy.congr (by intro p q hp hq; simp [hp]))
  intro i a _ hi ha
  rw [hv.idx hi]
  simp only [Res.ok_bind]
  obtain ⟨a', h1, h2⟩ := ha.set hi hi (d i)
  refine ⟨a', h1, h2.congr ?_⟩
  intro p q _ _
  simp only [upd2]
  by_cases h : p = i ∧ q = i
  · rw [if_pos h, if_pos (by omega), h.1]
  · rw [if_neg h]
    by_cases h' : p = q ∧ p < i
    · rw [if_pos h', if_pos (by omega)]
    · rw [if_neg h', if_neg (by omega)]

theorem eye_spec (n : Nat) :
    ∃ y, (Arr.eye n : Res (Arr α)) = .ok y ∧ IsMat y n n (fun i j => if i = j then 1 else 0) := by
  unfold Arr.eye
  refine forRange_post (fun i (a : Arr α) => IsMat a n n (fun p q => if p = q ∧ p < i then 1 else 0))
    (Nat.zero_le n) ((isMat_zeros n n).congr (by intros; simp)) ?_
    (fun y hy => hy.congr (by intro p q hp hq; simp [hp]))
  intro i a _ hi ha
  obtain ⟨a', h1, h2⟩ := ha.set hi hi 1
  refine ⟨a', h1, h2.congr ?_⟩
  intro p q _ _
  simp only [upd2]
  by_cases h : p = i ∧ q = i
  · rw [if_pos h, if_pos (by omega)]
  · rw [if_neg h]
    by_cases h' : p = q ∧ p < i
    · rw [if_pos h', if_pos (by omega)]
    · rw [if_neg h', if_neg (by omega)]

/-- a loop that fills a vector -/
theorem fillVec_spec {n : Nat} (f : Nat → α) {body : Nat → Arr α → Res (Arr α)}
    (h : ∀ i a, i < n → a.IsVecShape n → body i a = a.setIdx i (f i)) :
    ∃ y, forRange 0 n (Arr.new n) body = .ok y ∧ IsVec y n f := by
  refine forRange_post (fun i (a : Arr α) => IsVec a n (fun p => if p < i then f p else 0))
    (Nat.zero_le n) ((isVec_new n).congr (by intros; simp)) ?_
    (fun y hy => hy.congr (by intro p hp; simp [hp]))
  intro i a _ hi ha
  rw [h i a hi ha.shape]
  obtain ⟨a', h1, h2⟩ := ha.setIdx hi (f i)
  refine ⟨a', h1, h2.congr ?_⟩
  intro p _
  simp only [upd1]
  by_cases hp : p = i
  · rw [if_pos hp, if_pos (by omega), hp]
  · rw [if_neg hp]
    by_cases h' : p < i
    · rw [if_pos h', if_pos (by omega)]
    · rw [if_neg h', if_neg (by omega)]

theorem mapFn_vec_spec {a : Arr α} {n : Nat} {v : Nat → α} (ha : IsVec a n v) (f : α → α) :
    ∃ y, a.mapFn f = .ok y ∧ IsVec y n (fun i => f (v i)) := by
  unfold Arr.mapFn Arr.makeSameShape
  simp only [ha.is2d, Bool.false_eq_true, if_false, ha.rows, ha.len']
  exact fillVec_spec _ (fun i o hi _ => by rw [ha.idx hi]; rfl)

theorem mapFn_mat_spec {a : Arr α} {r c : Nat} {m : Nat → Nat → α} (ha : IsMat a r c m) (hc : 0 < c)
    (f : α → α) : ∃ y, a.mapFn f = .ok y ∧ IsMat y r c (fun i j => f (m i j)) := by
  unfold Arr.mapFn Arr.makeSameShape
  simp only [ha.is2d hc, if_true, ha.rows, ha.cols]
  have hl : a.len = r * c := ha.len
  rw [hl]
  have hflat : ∀ k < r * c, a.idx k = .ok (m (k / c) (k % c)) := by
    intro k hk
    have h1 : k / c < r := Nat.div_lt_of_lt_mul (by rwa [Nat.mul_comm])
    have h2 : k % c < c := Nat.mod_lt _ hc
    have h3 : k / c * c + k % c = k := by rw [Nat.mul_comm]; exact Nat.div_add_mod k c
    have := ha.idx h1 h2
    rwa [h3] at this
  refine forRange_post (fun k (o : Arr α) => IsMat o r c
      (fun p q => if p * c + q < k then f (m p q) else 0))
    (Nat.zero_le _) ((isMat_zeros r c).congr (by intros; simp)) ?_
    (fun y hy => hy.congr (by intro p q hp hq; simp [rm_lt hp hq]))
  intro k o _ hk ho
  rw [hflat k hk]
  simp only [Res.ok_bind]
  have h1 : k / c < r := Nat.div_lt_of_lt_mul (by rwa [Nat.mul_comm])
  have h2 : k % c < c := Nat.mod_lt _ hc
  have h3 : k / c * c + k % c = k := by rw [Nat.mul_comm]; exact Nat.div_add_mod k c
  obtain ⟨o', e1, e2⟩ := ho.setIdx h1 h2 (f (m (k / c) (k % c)))
  rw [h3] at e1
  refine ⟨o', e1, e2.congr ?_⟩
  intro p q hp hq
  simp only [upd2]
  by_cases h : p = k / c ∧ q = k % c
  · rw [if_pos h, if_pos (by rw [h.1, h.2, h3]; omega), h.1, h.2]
  · rw [if_neg h]
    have hne : p * c + q ≠ k := by
      intro hh
      apply h
      rw [← h3] at hh
      exact rm_inj hq h2 hh
    by_cases h' : p * c + q < k
    · rw [if_pos h', if_pos (by omega)]
    · rw [if_neg h', if_neg (by omega)]

omit [Scalar α] in
theorem row_spec {a : Arr α} {r c : Nat} {m : Nat → Nat → α} (ha : IsMat a r c m) (hc : 0 < c) {i : Nat}
    (hi : i < r) : ∃ y, a.row i = .ok y ∧ IsVec y c (fun j => m i j) := by
  unfold Arr.row
  have hle : i * c + c ≤ r * c := by
    calc i * c + c = (i + 1) * c := by ring
      _ ≤ r * c := Nat.mul_le_mul_right _ hi
  simp only [ha.is2d hc, Res.assert_true, Res.ok_bind, ha.rows, ha.cols, hi, decide_true, ha.len, hle]
  refine ⟨_, rfl, rfl, rfl, ?_, ?_⟩
  · simp [ha.len]; omega
  · intro j hj
    simp only [List.getElem?_take, hj, if_true, List.getElem?_drop]
    exact ha.get i j hi hj

end Ellalgo

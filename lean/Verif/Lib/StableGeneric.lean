import Verif.Spec.StableRun64

/-! What one update of `EllStable` computes, for any scalar arithmetic and any stored factors. -/

namespace Ellalgo

theorem subTo_congr {α : Type} [Scalar α] {c c' : α} {f f' : Nat → α} {n : Nat} (hc : c = c') (h : ∀ k < n, f k = f' k) :
    subTo c f n = subTo c' f' n := by
  induction n with
  | zero => exact hc
  | succ n ih => rw [subTo, subTo, ih fun k hk => h k (by omega), h n (by omega)]

theorem upd1_same {α : Type} (f : Nat → α) (i : Nat) (x : α) : upd1 f i x i = x := if_pos rfl
theorem upd1_ne {α : Type} (f : Nat → α) {i k : Nat} (x : α) (h : k ≠ i) : upd1 f i x k = f k := if_neg h

namespace EllStable
variable {α : Type} [Scalar α] {n : Nat}

/-- the factors with the entries below the diagonal replaced by `m_ji w_j` -/
def lowM (m : Nat → Nat → α) (w : Nat → α) (i j : Nat) : α := if j < i then m j i * w j else m i j

theorem forward_generic {mq g : Arr α} {m : Nat → Nat → α} {v : Nat → α} (hn : 0 < n) (hm : IsMat mq n n m) (hg : IsVec g n v) :
    ∃ st w, forward n mq g = .ok st ∧ IsFwd n m v w ∧ IsMat st.1 n n (lowM m w) ∧ IsVec st.2 n w := by
  unfold forward
  obtain ⟨st, h1, W, h2, h3, h4, h5⟩ := forRange_spec (σ := Arr α × Arr α)
    (fun i st => ∃ W : Nat → α, IsMat st.1 n n (fun a b => if b < a ∧ a < i then m b a * W b else m a b) ∧ IsVec st.2 n W ∧
      (∀ a < i, W a = subTo (v a) (fun j => m j a * W j) a) ∧ ∀ a, i ≤ a → W a = v a)
    (f := fun i st => forRange 0 i st fun j (mq, v) => do
      let m ← mq.get j i
      let vj ← v.idx j
      let val := m * vj
      let mq ← mq.setIdx (i * n + j) val
      let vi ← v.idx i
      let v ← v.setIdx i (vi - val)
      .ok (mq, v)) (s := (mq, g)) (by omega : 1 ≤ n)
    ⟨v, hm.congr fun a b _ _ => by rw [if_neg (by omega)], hg, fun a ha => by
      obtain rfl : a = 0 := by omega
      rfl, fun a _ => rfl⟩ (by
    rintro i ⟨q, u⟩ - hi ⟨W, hq, hu, w1, w2⟩
    simp only at hq hu
    obtain ⟨st', a1, a2, a3⟩ := forRange_spec (σ := Arr α × Arr α)
      (fun j st => IsMat st.1 n n (fun a b => if b < a ∧ (a < i ∨ (a = i ∧ b < j)) then m b a * W b else m a b) ∧
        IsVec st.2 n (upd1 W i (subTo (v i) (fun j => m j i * W j) j)))
      (f := fun j (mq, v) => do
        let m ← mq.get j i
        let vj ← v.idx j
        let val := m * vj
        let mq ← mq.setIdx (i * n + j) val
        let vi ← v.idx i
        let v ← v.setIdx i (vi - val)
        .ok (mq, v)) (s := (q, u)) (Nat.zero_le i)
      ⟨hq.congr fun a b _ _ => by
        by_cases h : b < a ∧ a < i
        · rw [if_pos h, if_pos ⟨h.1, .inl h.2⟩]
        · rw [if_neg h, if_neg (by rintro ⟨c1, c2 | ⟨-, c2⟩⟩; exacts [h ⟨c1, c2⟩, by omega])],
       hu.congr fun a _ => by
        unfold upd1
        split_ifs with h
        · rw [h, w2 i le_rfl]; rfl
        · rfl⟩ (by
      rintro j ⟨q, u⟩ - hj ⟨hq, hu⟩
      simp only at hq hu
      have hj' : j < n := by omega
      obtain ⟨q', b1, b2⟩ := hq.setIdx hi hj' (m j i * W j)
      obtain ⟨u', c1, c2⟩ := hu.setIdx hi (subTo (v i) (fun j => m j i * W j) j - m j i * W j)
      refine ⟨(q', u'), ?_, b2.congr fun a b _ _ => ?_, c2.congr fun a _ => ?_⟩
      · have g1 := hq.getij hj' hi
        rw [if_neg (by omega)] at g1
        have g2 := hu.idx hj'
        have g3 := hu.idx hi
        rw [upd1_ne _ _ (by omega)] at g2
        rw [upd1_same] at g3
        simp only [g1, g2, Res.ok_bind, b1, g3, c1]
      · unfold upd2
        by_cases h : a = i ∧ b = j
        · obtain ⟨rfl, rfl⟩ := h
          rw [if_pos ⟨rfl, rfl⟩, if_pos ⟨hj, .inr ⟨rfl, by omega⟩⟩]
        · rw [if_neg h]
          have : (b < a ∧ (a < i ∨ (a = i ∧ b < j))) ↔ (b < a ∧ (a < i ∨ (a = i ∧ b < j + 1))) := by
            constructor
            · rintro ⟨d1, d2⟩; exact ⟨d1, by omega⟩
            · rintro ⟨d1, d2⟩; exact ⟨d1, by omega⟩
          simp only [this]
      · unfold upd1
        by_cases h : a = i
        · simp only [h, if_true]; rfl
        · simp only [h, if_false])
    refine ⟨st', a1, upd1 W i (subTo (v i) (fun j => m j i * W j) i), a2.congr fun a b _ _ => ?_, a3, fun a ha => ?_, fun a ha => ?_⟩
    · by_cases h : b < a ∧ a < i + 1
      · rw [if_pos (by omega), if_pos h]
        rw [upd1_ne _ _ (by omega)]
      · rw [if_neg (by omega), if_neg h]
    · by_cases h : a = i
      · subst h
        rw [upd1_same]
        exact subTo_congr rfl fun k hk => by rw [upd1_ne _ _ (by omega)]
      · have e : upd1 W i (subTo (v i) (fun j => m j i * W j) i) a = W a := upd1_ne _ _ h
        rw [e, w1 a (by omega)]
        exact subTo_congr rfl fun k hk => by rw [upd1_ne _ _ (by omega)]
    · rw [upd1_ne _ _ (by omega)]
      exact w2 a (by omega))
  refine ⟨st, W, h1, fun i hi => h4 i hi, h2.congr fun a b ha _ => ?_, h3⟩
  unfold lowM
  simp only [ha, and_true]

theorem backward_generic {mq g : Arr α} {m : Nat → Nat → α} {w z : Nat → α} (hn : 0 < n) (hm : IsMat mq n n (lowM m w)) (hg : IsVec g n z) :
    ∃ g' h, backward n mq g = .ok g' ∧ IsBwd n m w z h ∧ IsVec g' n h := by
  unfold backward
  obtain ⟨g', h1, H, h2, h3, h4⟩ := forDown_spec (σ := Arr α)
    (fun i g => ∃ H : Nat → α, IsVec g n H ∧
      (∀ a, i ≤ a + 1 → a < n → H a = subTo (z a) (fun k => m a (a + 1 + k) * w a * H (a + 1 + k)) (n - 1 - a)) ∧
      ∀ a, a + 1 < i → H a = z a)
    (f := fun i gT => forRange i n gT fun j gT => do
      let x ← gT.idx (i - 1)
      let m ← mq.get j (i - 1)
      let gj ← gT.idx j
      gT.setIdx (i - 1) (x - m * gj)) (s := g) (by omega : 1 ≤ n)
    ⟨z, hg, fun a h1 h2 => by rw [show n - 1 - a = 0 by omega]; rfl, fun a _ => rfl⟩ (by
    rintro i u h1 hi ⟨H, hu, w1, w2⟩
    obtain ⟨i, rfl⟩ : ∃ c, i = c + 1 := ⟨i - 1, by omega⟩
    obtain ⟨u', a1, a2⟩ := forRange_spec (σ := Arr α)
      (fun j u => IsVec u n (upd1 H i (subTo (z i) (fun k => m i (i + 1 + k) * w i * H (i + 1 + k)) (j - (i + 1)))))
      (f := fun j gT => do
        let x ← gT.idx (i + 1 - 1)
        let m ← mq.get j (i + 1 - 1)
        let gj ← gT.idx j
        gT.setIdx (i + 1 - 1) (x - m * gj)) (s := u) (by omega : i + 1 ≤ n)
      (hu.congr fun a _ => by
        unfold upd1
        split_ifs with h
        · rw [h, w2 i (by omega), Nat.sub_self]; rfl
        · rfl) (by
      rintro j u hj1 hj hu
      obtain ⟨k, rfl⟩ : ∃ k, j = i + 1 + k := ⟨j - (i + 1), by omega⟩
      have e1 : i + 1 + k - (i + 1) = k := by omega
      have e2 : i + 1 + k + 1 - (i + 1) = k + 1 := by omega
      rw [e1] at hu
      rw [e2]
      obtain ⟨u', c1, c2⟩ := hu.setIdx (by omega : i < n)
        (subTo (z i) (fun k => m i (i + 1 + k) * w i * H (i + 1 + k)) k - m i (i + 1 + k) * w i * H (i + 1 + k))
      refine ⟨u', ?_, c2.congr fun a _ => ?_⟩
      · have g1 := hm.getij hj (by omega : i < n)
        have g2 := hu.idx hj
        have g3 := hu.idx (by omega : i < n)
        rw [lowM, if_pos (by omega)] at g1
        rw [upd1_ne _ _ (by omega)] at g2
        rw [upd1_same] at g3
        simp only [Nat.add_sub_cancel, g3, g1, g2, Res.ok_bind, c1]
      · unfold upd1
        by_cases h : a = i
        · simp only [h, if_true]; rfl
        · simp only [h, if_false])
    refine ⟨u', a1, _, a2, fun a ha1 ha2 => ?_, fun a ha => ?_⟩
    · by_cases h : a = i
      · subst h
        rw [show n - (a + 1) = n - 1 - a by omega]
        rw [upd1_same]
        exact subTo_congr rfl fun k hk => by rw [upd1_ne _ _ (by omega)]
      · have e : ∀ q, upd1 H i q a = H a := fun q => upd1_ne _ _ h
        rw [e, w1 a (by omega) ha2]
        exact subTo_congr rfl fun k hk => by rw [upd1_ne _ _ (by omega)]
    · rw [upd1_ne _ _ (by omega)]
      exact w2 a (by omega))
  exact ⟨g', H, h1, fun i hi => h3 i (by omega) hi, h2⟩

theorem scaleDiag_generic {mq g : Arr α} {m : Nat → Nat → α} {v : Nat → α} (hm : IsMat mq n n m) (hg : IsVec g n v) :
    ∃ z, scaleDiag n mq g = .ok z ∧ IsVec z n (fun i => v i * m i i) := by
  unfold scaleDiag
  obtain ⟨z, h1, h2⟩ := forRange_spec (fun k (z : Arr α) => IsVec z n (fun i => if i < k then v i * m i i else v i))
    (f := fun i v => do
      let x ← v.idx i
      let d ← mq.get i i
      v.setIdx i (x * d)) (s := g) (Nat.zero_le n) (hg.congr fun i _ => by simp) (by
    intro i z _ hi hz
    obtain ⟨z', a1, a2⟩ := hz.setIdx hi ((if i < i then v i * m i i else v i) * m i i)
    refine ⟨z', ?_, a2.congr fun k _ => ?_⟩
    · simp only [hz.idx hi, hm.getij hi hi, Res.ok_bind, a1]
    · unfold upd1
      by_cases hk : k = i
      · subst hk; simp
      · have : k < i + 1 ↔ k < i := by omega
        simp [hk, this])
  exact ⟨z, h1, h2.congr fun i hi => by simp [hi]⟩

theorem calcOmega_generic {z w : Arr α} {x y : Nat → α} (hz : IsVec z n x) (hw : IsVec w n y) :
    ∃ st, calcOmega n z w = .ok st ∧ IsVec st.1 n (fun i => x i * y i) ∧ st.2 = sumTo n fun i => x i * y i := by
  unfold calcOmega
  obtain ⟨st, h1, h2, h3⟩ := forRange_spec (σ := Arr α × α)
    (fun k st => IsVec st.1 n (fun i => if i < k then x i * y i else x i) ∧ st.2 = sumTo k fun i => x i * y i)
    (f := fun i (ggT, omega) => do
    let x ← ggT.idx i
    let y ← w.idx i
    let ggT ← ggT.setIdx i (x * y)
    let p ← ggT.idx i
    .ok (ggT, omega + p)) (s := (z, (0 : α))) (Nat.zero_le n) ⟨hz.congr fun i _ => by simp, rfl⟩ (by
    rintro i ⟨q, om⟩ _ hi ⟨hy, ho⟩
    simp only at hy ho
    obtain ⟨y', a1, a2⟩ := hy.setIdx hi (x i * y i)
    refine ⟨(y', om + x i * y i), ?_, a2.congr fun k _ => ?_, ?_⟩
    · simp only [hy.idx hi, hw.idx hi, Res.ok_bind, a1, a2.idx hi, upd1, if_true, lt_irrefl, if_false]
    · unfold upd1
      by_cases hk : k = i
      · subst hk; simp
      · have : k < i + 1 ↔ k < i := by omega
        simp [hk, this]
    · rw [sumTo, ← ho])
  exact ⟨st, h1, h2.congr fun i hi => by simp [hi], h3⟩

theorem updateXc_generic {xc gT : Arr α} {c v : Nat → α} (hx : IsVec xc n c) (hg : IsVec gT n v) (r : α) :
    ∃ y, updateXc n xc gT r = .ok y ∧ IsVec y n (fun i => c i - r * v i) := by
  unfold updateXc
  obtain ⟨z, h1, h2⟩ := forRange_spec (fun k (z : Arr α) => IsVec z n (fun i => if i < k then c i - r * v i else c i))
    (f := fun i xc => do
      let x ← xc.idx i
      let g ← gT.idx i
      xc.setIdx i (x - r * g)) (s := xc) (Nat.zero_le n) (hx.congr fun i _ => by simp) (by
    intro i z _ hi hz
    obtain ⟨z', a1, a2⟩ := hz.setIdx hi ((if i < i then c i - r * v i else c i) - r * v i)
    refine ⟨z', ?_, a2.congr fun k _ => ?_⟩
    · simp only [hz.idx hi, hg.idx hi, Res.ok_bind, a1]
    · unfold upd1
      by_cases hk : k = i
      · subst hk; simp
      · have : k < i + 1 ↔ k < i := by omega
        simp [hk, this])
  exact ⟨z, h1, h2.congr fun i hi => by simp [hi]⟩

/-- the factors after the rank-one update -/
def newF (m : Nat → Nat → α) (w z t : Nat → α) (i j : Nat) : α :=
  if j < i then m j i * w j
  else if i = j then m i i * (t i / t (i + 1))
  else m i j + z i / t (i + 1) * (m i j * w i)

/-- the factors after `k` rows -/
def partF (k : Nat) (m : Nat → Nat → α) (w z t : Nat → α) (i j : Nat) : α := if i < k then newF m w z t i j else lowM m w i j

theorem rankOne_generic {mq zz ggT : Arr α} {m : Nat → Nat → α} {w z p : Nat → α} (hn : 0 < n) (hm : IsMat mq n n (lowM m w)) (hz : IsVec zz n z)
    (hp : IsVec ggT n p) (ω σ : α) :
    ∃ mq', rankOne n mq zz ggT ω σ = .ok mq' ∧ IsMat mq' n n (newF m w z (addFrom (ω / (σ / (1 - σ))) p)) := by
  obtain ⟨t, ht⟩ : ∃ t, t = addFrom (ω / (σ / (1 - σ))) p := ⟨_, rfl⟩
  have t0 : ω / (σ / (1 - σ)) = t 0 := by rw [ht]; rfl
  have ts : ∀ k, t k + p k = t (k + 1) := fun k => by rw [ht]; rfl
  rw [← ht]
  unfold rankOne
  have low : ∀ {k l j : Nat}, l = k ∨ k < l → partF k m w z t l j = lowM m w l j := fun h => by
    unfold partF; rw [if_neg (by omega)]
  obtain ⟨st, h1, h2, h3⟩ := forRange_spec (σ := Arr α × α)
    (fun k st => IsMat st.1 n n (partF k m w z t) ∧ st.2 = t k)
    (f := fun j (mq, oldt) => do
    let p ← ggT.idx j
    let temp := oldt + p
    let zj ← zz.idx j
    let beta2 := zj / temp
    let d ← mq.idx (j * n + j)
    let mq ← mq.setIdx (j * n + j) (d * (oldt / temp))
    let rowStart := j * n
    let mq ← forRange (j + 1) n mq fun l mq => do
      let old ← mq.idx (rowStart + l)
      let m ← mq.get l j
      mq.setIdx (rowStart + l) (old + beta2 * m)
    .ok (mq, temp)) (s := (mq, ω / (σ / (1 - σ)))) (Nat.zero_le (n - 1))
    ⟨hm.congr fun i j _ _ => by rw [low (by omega)], t0⟩ (by
    rintro j ⟨mq, oldt⟩ - hj ⟨hmq, ho⟩
    simp only at ho hmq
    subst ho
    have hj' : j < n := by omega
    obtain ⟨mq1, a1, a2⟩ := hmq.setIdx hj' hj' (m j j * (t j / t (j + 1)))
    obtain ⟨mq2, b1, b2⟩ := forRange_spec (σ := Arr α)
      (fun l mq => IsMat mq n n (fun a b => if a = j ∧ b < l then newF m w z t a b else partF j m w z t a b))
      (f := fun l mq => do
        let old ← mq.idx (j * n + l)
        let m ← mq.get l j
        mq.setIdx (j * n + l) (old + z j / t (j + 1) * m)) (s := mq1) (lo := j + 1) (hi := n) (by omega)
      (a2.congr fun a b _ _ => by
        unfold upd2
        by_cases h : a = j ∧ b = j
        · obtain ⟨rfl, rfl⟩ := h
          rw [if_pos ⟨rfl, rfl⟩, if_pos ⟨rfl, by omega⟩, newF, if_neg (by omega), if_pos rfl]
        · rw [if_neg h]
          by_cases h2 : a = j ∧ b < j + 1
          · rw [if_pos h2, low (by omega), newF, if_pos (by omega), lowM, if_pos (by omega)]
          · rw [if_neg h2]) (by
      intro l mq hl1 hl hmq
      obtain ⟨mq', c1, c2⟩ := hmq.setIdx hj' hl (m j l + z j / t (j + 1) * (m j l * w j))
      refine ⟨mq', ?_, c2.congr fun a b _ _ => ?_⟩
      · have g1 := hmq.idx hj' hl
        have g2 := hmq.getij hl hj'
        rw [if_neg (by omega), low (by omega), lowM, if_neg (by omega)] at g1
        rw [if_neg (by omega), low (by omega), lowM, if_pos (by omega)] at g2
        simp only [g1, g2, Res.ok_bind, c1]
      · unfold upd2
        by_cases h : a = j ∧ b = l
        · obtain ⟨rfl, rfl⟩ := h
          rw [if_pos ⟨rfl, rfl⟩, if_pos ⟨rfl, by omega⟩, newF, if_neg (by omega), if_neg (by omega)]
        · rw [if_neg h]
          dsimp only
          by_cases h2 : a = j ∧ b < l
          · rw [if_pos h2, if_pos (by omega)]
          · rw [if_neg h2, if_neg (by omega)])
    refine ⟨(mq2, t (j + 1)), ?_, b2.congr fun a b _ hb => ?_, rfl⟩
    · have g1 := hmq.idx hj' hj'
      rw [low (by omega), lowM, if_neg (by omega)] at g1
      simp only [hp.idx hj', hz.idx hj', g1, Res.ok_bind, ts, a1, b1]
    · by_cases h : a = j
      · rw [if_pos ⟨h, hb⟩, partF, if_pos (by omega)]
      · rw [if_neg (by omega)]
        have : a < j ↔ a < j + 1 := by omega
        simp only [partF, this])
  obtain ⟨mqs, told⟩ := st
  simp only at h3 h2
  subst h3
  obtain ⟨mq1, a1, a2⟩ := h2.setIdx (by omega : n - 1 < n) (by omega : n - 1 < n)
    (m (n - 1) (n - 1) * (t (n - 1) / t (n - 1 + 1)))
  refine ⟨mq1, ?_, a2.congr fun i j hi hj => ?_⟩
  · have g1 := h2.idx (by omega : n - 1 < n) (by omega : n - 1 < n)
    rw [low (by omega), lowM, if_neg (by omega)] at g1
    simp only [decide_eq_true hn, Res.assert_true, Res.ok_bind, hp.idx (by omega : n - 1 < n)]
    rw [h1]
    simp only [Res.ok_bind, g1, ts, a1]
  · unfold upd2
    by_cases h : i = n - 1 ∧ j = n - 1
    · obtain ⟨rfl, rfl⟩ := h
      rw [if_pos ⟨rfl, rfl⟩, newF, if_neg (by omega), if_pos rfl]
    · rw [if_neg h]
      unfold partF
      split_ifs with h2
      · rfl
      · rw [lowM, if_pos (by omega), newF, if_pos (by omega)]

/-- one update, any stored factors -/
theorem updateCore_generic {e : EllStable α} {g : Arr α} {m : Nat → Nat → α} {c v : Nat → α} (hn : 0 < n) (hm : IsMat e.mq n n m)
    (hx : IsVec e.xc n c) (hg : IsVec g n v) (strategy : α → CutStatus × Triple α) :
    ∃ w h, IsFwd n m v w ∧ IsBwd n m w (fun i => w i * m i i) h ∧ ∀ st ρ σ δ,
      strategy (e.kappa * sumTo n fun i => w i * m i i * w i) = (st, ρ, σ, δ) →
      ∃ e', e.updateCore g strategy = .ok (st, e') ∧ e'.helper = e.helper ∧ e'.tsq = e.kappa * (sumTo n fun i => w i * m i i * w i) ∧
      (st ≠ .success → IsMat e'.mq n n (lowM m w) ∧ e'.xc = e.xc ∧ e'.kappa = e.kappa) ∧
      (st = .success → IsMat e'.mq n n (newF m w (fun i => w i * m i i)
          (addFrom ((sumTo n fun i => w i * m i i * w i) / (σ / (1 - σ))) fun i => w i * m i i * w i)) ∧
        IsVec e'.xc n (fun i => c i - ρ / (sumTo n fun i => w i * m i i * w i) * h i) ∧ e'.kappa = e.kappa * δ) := by
  obtain ⟨⟨mq1, wa⟩, w, a1, a2, a3, a4⟩ := forward_generic hn hm hg
  simp only at a3 a4
  obtain ⟨z, b1, b2⟩ := scaleDiag_generic a3 a4
  have b3 : IsVec z n (fun i => w i * m i i) := b2.congr fun i _ => by simp only [lowM, lt_irrefl, if_false]
  obtain ⟨⟨gg, om⟩, c1, c2, c3⟩ := calcOmega_generic b3 a4
  simp only at c2 c3
  subst c3
  obtain ⟨gT, h, d1, d2, d3⟩ := backward_generic hn a3 b3
  refine ⟨w, h, a2, d2, fun st ρ σ δ hs => ?_⟩
  unfold updateCore
  simp only [hx.len', a1, Res.ok_bind, b1, c1, hs]
  by_cases hst : st = .success
  · subst hst
    obtain ⟨xc, e1, e2⟩ := updateXc_generic hx d3 (ρ / sumTo n fun i => w i * m i i * w i)
    obtain ⟨mq2, f1, f2⟩ := rankOne_generic hn a3 b3 c2 (sumTo n fun i => w i * m i i * w i) σ
    exact ⟨{ e with mq := mq2, xc := xc, tsq := e.kappa * (sumTo n fun i => w i * m i i * w i), kappa := e.kappa * δ },
      by simp [d1, e1, f1], rfl, rfl, fun h => absurd rfl h, fun _ => ⟨f2, e2, rfl⟩⟩
  · exact ⟨{ e with mq := mq1, tsq := e.kappa * (sumTo n fun i => w i * m i i * w i) },
      by simp [hst], rfl, rfl, fun _ => ⟨a3, rfl, rfl⟩, fun h => absurd h hst⟩

end EllStable
end Ellalgo

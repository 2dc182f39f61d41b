import Verif.Lib.Rounded
import Verif.Lib.LoopSim
import Verif.Spec.EllOps

/-! `EllStable.updateCore` on a diagonal matrix in rounded arithmetic: the off-diagonal entries stay exactly zero. -/

namespace Ellalgo
variable {u : ℝ} {R : Rounding u}

theorem Fl.zero_mul' (x : Fl R) : (0 : Fl R) * x = 0 := Fl.ext (by simp [R.zero])
theorem Fl.mul_zero' (x : Fl R) : x * (0 : Fl R) = 0 := Fl.ext (by simp [R.zero])
theorem Fl.zero_add_zero : (0 : Fl R) + 0 = 0 := Fl.ext (by simp [R.zero])
theorem Fl.sub_zero' {x : Fl R} (h : R.Rep x.val) : x - 0 = x := Fl.ext (by simp only [Fl.sub_val, Fl.zero_val, _root_.sub_zero]; exact h)
theorem Fl.rep_mul (x y : Fl R) : R.Rep (x * y).val := R.idem _

namespace EllStable
variable {n : Nat} {mq z w g : Arr (Fl R)}

/-- diagonal matrix as a function of two natural indices -/
noncomputable def dgF (d : Nat → Fl R) (i j : Nat) : Fl R := if i = j then d i else 0

theorem dgF_off {d : Nat → Fl R} {i j : Nat} (h : i ≠ j) : dgF d i j = 0 := if_neg h
theorem dgF_diag (d : Nat → Fl R) (i : Nat) : dgF d i i = d i := if_pos rfl

theorem setIdx_sameF {m : Nat → Nat → Fl R} (h : IsMat mq n n m) {i j : Nat} (hi : i < n) (hj : j < n) {x : Fl R}
    (hx : x = m i j) : ∃ mq', mq.setIdx (i * n + j) x = .ok mq' ∧ IsMat mq' n n m := by
  obtain ⟨mq', h1, h2⟩ := h.setIdx hi hj x
  refine ⟨mq', h1, h2.congr fun a b _ _ => ?_⟩
  unfold upd2
  split
  · rename_i hab; rw [hab.1, hab.2, hx]
  · rfl

theorem vsetIdx_sameF {v : Nat → Fl R} (h : IsVec g n v) {i : Nat} (hi : i < n) {x : Fl R}
    (hx : x = v i) : ∃ g', g.setIdx i x = .ok g' ∧ IsVec g' n v := by
  obtain ⟨g', h1, h2⟩ := h.setIdx hi x
  refine ⟨g', h1, h2.congr fun a _ => ?_⟩
  unfold upd1
  split
  · rename_i hab; rw [hab, hx]
  · rfl

theorem forward_diagF {d v : Nat → Fl R} (hm : IsMat mq n n (dgF d)) (hg : IsVec g n v) (hv : ∀ i < n, R.Rep (v i).val) :
    ∃ st, forward n mq g = .ok st ∧ IsMat st.1 n n (dgF d) ∧ IsVec st.2 n v := by
  unfold forward
  rcases Nat.lt_or_ge n 2 with h2 | h2
  · rw [forRange_empty (by omega)]
    exact ⟨_, rfl, hm, hg⟩
  · apply forRange_spec (fun _ (st : Arr (Fl R) × Arr (Fl R)) => IsMat st.1 n n (dgF d) ∧ IsVec st.2 n v) (by omega) ⟨hm, hg⟩
    rintro i ⟨mq, g⟩ h1 hi ⟨hm, hg⟩
    apply forRange_spec (fun _ (st : Arr (Fl R) × Arr (Fl R)) => IsMat st.1 n n (dgF d) ∧ IsVec st.2 n v) (by omega) ⟨hm, hg⟩
    rintro j ⟨mq, g⟩ - hj ⟨hm, hg⟩
    have hj' : j < n := by omega
    have e0 : dgF d j i * v j = 0 := by rw [dgF_off (by omega), Fl.zero_mul']
    obtain ⟨mq', a1, a2⟩ := setIdx_sameF hm hi hj' (x := dgF d j i * v j) (by rw [e0, dgF_off (by omega)])
    obtain ⟨g', b1, b2⟩ := vsetIdx_sameF hg hi (x := v i - dgF d j i * v j) (by rw [e0, Fl.sub_zero' (hv i hi)])
    refine ⟨(mq', g'), ?_, a2, b2⟩
    simp only [hm.getij hj' hi, hg.idx hj', Res.ok_bind, a1, hg.idx hi, b1]

theorem backward_diagF {d v : Nat → Fl R} (hm : IsMat mq n n (dgF d)) (hg : IsVec g n v) (hv : ∀ i < n, R.Rep (v i).val) :
    ∃ g', backward n mq g = .ok g' ∧ IsVec g' n v := by
  unfold backward
  rcases Nat.lt_or_ge n 1 with h2 | h2
  · have : n = 0 := by omega
    subst this
    exact ⟨g, rfl, hg⟩
  · apply forDown_spec (fun _ (g : Arr (Fl R)) => IsVec g n v) h2 hg
    intro i g h1 hi hg
    apply forRange_spec (fun _ (g : Arr (Fl R)) => IsVec g n v) (by omega) hg
    intro j g hj1 hj hg
    have e0 : v (i - 1) - dgF d j (i - 1) * v j = v (i - 1) := by
      rw [dgF_off (by omega), Fl.zero_mul', Fl.sub_zero' (hv _ (by omega))]
    obtain ⟨g', b1, b2⟩ := vsetIdx_sameF hg (by omega : i - 1 < n) e0
    refine ⟨g', ?_, b2⟩
    simp only [hg.idx (by omega : i - 1 < n), hm.getij hj (by omega : i - 1 < n), hg.idx hj, Res.ok_bind, b1]

theorem scaleDiag_diagF {d v : Nat → Fl R} (hm : IsMat mq n n (dgF d)) (hg : IsVec g n v) :
    ∃ z, scaleDiag n mq g = .ok z ∧ IsVec z n (fun i => v i * d i) := by
  unfold scaleDiag
  obtain ⟨z, h1, h2⟩ := forRange_spec (fun k (z : Arr (Fl R)) => IsVec z n (fun i => if i < k then v i * d i else v i))
    (f := fun i v => do
      let x ← v.idx i
      let d ← mq.get i i
      v.setIdx i (x * d)) (s := g) (Nat.zero_le n) (hg.congr fun i _ => by simp) (by
    intro i z _ hi hz
    obtain ⟨z', a1, a2⟩ := hz.setIdx hi ((if i < i then v i * d i else v i) * d i)
    refine ⟨z', ?_, a2.congr fun k _ => ?_⟩
    · simp only [hz.idx hi, hm.getij hi hi, dgF_diag, Res.ok_bind, a1]
    · unfold upd1
      by_cases hk : k = i
      · subst hk; simp
      · have : k < i + 1 ↔ k < i := by omega
        simp [hk, this])
  exact ⟨z, h1, h2.congr fun i hi => by simp [hi]⟩

theorem calcOmega_specF {x y : Nat → Fl R} (hz : IsVec z n x) (hw : IsVec w n y) :
    ∃ st, calcOmega n z w = .ok st ∧ IsVec st.1 n (fun i => x i * y i) ∧ st.2 = sumTo n fun i => x i * y i := by
  unfold calcOmega
  obtain ⟨st, h1, h2, h3⟩ := forRange_spec (σ := Arr (Fl R) × Fl R)
    (fun k st => IsVec st.1 n (fun i => if i < k then x i * y i else x i) ∧ st.2 = sumTo k fun i => x i * y i)
    (f := fun i (ggT, omega) => do
    let x ← ggT.idx i
    let y ← w.idx i
    let ggT ← ggT.setIdx i (x * y)
    let p ← ggT.idx i
    .ok (ggT, omega + p)) (s := (z, (0 : Fl R))) (Nat.zero_le n) ⟨hz.congr fun i _ => by simp, rfl⟩ (by
    rintro i ⟨q, om⟩ _ hi ⟨hy, ho⟩
    simp only at hy ho
    obtain ⟨y', a1, a2⟩ := hy.setIdx hi (x i * y i)
    refine ⟨(y', om + x i * y i), ?_, a2.congr fun k _ => ?_, ?_⟩
    · simp only [hy.idx hi, hw.idx hi, Res.ok_bind, a1, a2.idx hi, upd1, if_true, lt_irrefl, if_false]
    · unfold upd1
      by_cases hk : k = i
      · subst hk; simp
      · have : k < i + 1 ↔ k < i := by omega
        simp [hk, this]
    · rw [sumTo, ← ho])
  exact ⟨st, h1, h2.congr fun i hi => by simp [hi], h3⟩

/-- partial sums the rank-one update runs through -/
noncomputable def ttF (t0 : Fl R) (p : Nat → Fl R) : Nat → Fl R
  | 0 => t0
  | k + 1 => ttF t0 p k + p k

theorem rankOne_diagF {ggT : Arr (Fl R)} {d x p : Nat → Fl R} (hn : 0 < n) (hm : IsMat mq n n (dgF d)) (hz : IsVec z n x)
    (hp : IsVec ggT n p) (ω σ : Fl R) :
    ∃ mq', rankOne n mq z ggT ω σ = .ok mq' ∧
      IsMat mq' n n (dgF fun k => d k * (ttF (ω / (σ / (1 - σ))) p k / ttF (ω / (σ / (1 - σ))) p (k + 1))) := by
  set t := ttF (ω / (σ / (1 - σ))) p with ht
  have ts : ∀ k, t (k + 1) = t k + p k := fun k => rfl
  unfold rankOne
  have hupd : ∀ (k : Nat) (hk : k < n) (mq : Arr (Fl R)),
      IsMat mq n n (dgF fun i => if i < k then d i * (t i / t (i + 1)) else d i) →
      ∃ mq', mq.setIdx (k * n + k) (d k * (t k / t (k + 1))) = .ok mq' ∧
        IsMat mq' n n (dgF fun i => if i < k + 1 then d i * (t i / t (i + 1)) else d i) := by
    intro k hk mq hmq
    obtain ⟨mq', a1, a2⟩ := hmq.setIdx hk hk (d k * (t k / t (k + 1)))
    refine ⟨mq', a1, a2.congr fun i j _ _ => ?_⟩
    unfold upd2 dgF
    by_cases hij : i = j
    · subst hij
      by_cases hik : i = k
      · subst hik; simp
      · have : i < k + 1 ↔ i < k := by omega
        simp [hik, this]
    · rw [if_neg (by rintro ⟨rfl, rfl⟩; exact hij rfl), if_neg hij, if_neg hij]
  obtain ⟨st, h1, h2, h3⟩ := forRange_spec (σ := Arr (Fl R) × Fl R)
    (fun k st => IsMat st.1 n n (dgF fun i => if i < k then d i * (t i / t (i + 1)) else d i) ∧ st.2 = t k)
    (f := fun j (mq, oldt) => do
    let p ← ggT.idx j
    let temp := oldt + p
    let zj ← z.idx j
    let beta2 := zj / temp
    let d ← mq.idx (j * n + j)
    let mq ← mq.setIdx (j * n + j) (d * (oldt / temp))
    let rowStart := j * n
    let mq ← forRange (j + 1) n mq fun l mq => do
      let old ← mq.idx (rowStart + l)
      let m ← mq.get l j
      mq.setIdx (rowStart + l) (old + beta2 * m)
    .ok (mq, temp)) (s := (mq, ω / (σ / (1 - σ)))) (Nat.zero_le (n - 1))
    ⟨hm.congr fun i j _ _ => by simp, rfl⟩ (by
    rintro j ⟨mq, oldt⟩ - hj ⟨hmq, ho⟩
    simp only at ho hmq
    subst ho
    have hj' : j < n := by omega
    obtain ⟨mq1, a1, a2⟩ := hupd j hj' mq hmq
    obtain ⟨mq2, b1, b2⟩ := forRange_spec (σ := Arr (Fl R))
      (fun _ mq => IsMat mq n n (dgF fun i => if i < j + 1 then d i * (t i / t (i + 1)) else d i))
      (f := fun l mq => do
        let old ← mq.idx (j * n + l)
        let m ← mq.get l j
        mq.setIdx (j * n + l) (old + x j / (t j + p j) * m)) (s := mq1) (lo := j + 1) (hi := n) (by omega) a2 (by
      intro l mq hl1 hl hmq
      have e0 : dgF (fun i => if i < j + 1 then d i * (t i / t (i + 1)) else d i) j l + x j / (t j + p j) *
          dgF (fun i => if i < j + 1 then d i * (t i / t (i + 1)) else d i) l j =
          dgF (fun i => if i < j + 1 then d i * (t i / t (i + 1)) else d i) j l := by
        rw [dgF_off (by omega : l ≠ j), dgF_off (by omega : j ≠ l), Fl.mul_zero', Fl.zero_add_zero]
      obtain ⟨mq', c1, c2⟩ := setIdx_sameF hmq hj' hl e0
      exact ⟨mq', by simp only [hmq.idx hj' hl, hmq.getij hl hj', Res.ok_bind, c1], c2⟩)
    refine ⟨(mq2, t (j + 1)), ?_, b2, rfl⟩
    rw [ts] at a1 
    simp only [hp.idx hj', hz.idx hj', hmq.idx hj' hj', dgF_diag, lt_irrefl, if_false, Res.ok_bind, a1, b1, ts])
  obtain ⟨mq1, a1, a2⟩ := hupd (n - 1) (by omega) st.1 h2
  have hd := h2.idx (by omega : n - 1 < n) (by omega : n - 1 < n)
  refine ⟨mq1, ?_, a2.congr fun i j hi hj => ?_⟩
  · obtain ⟨mqs, told⟩ := st
    simp only at h3 h2 a1 hd
    subst h3
    rw [ts] at a1
    simp only [dgF_diag, lt_irrefl, if_false] at hd
    simp only [decide_eq_true hn, Res.assert_true, Res.ok_bind, hp.idx (by omega : n - 1 < n)]
    rw [h1]
    simp only [Res.ok_bind, hd, a1]
  · have : i < n - 1 + 1 := by omega
    simp only [dgF, this, if_true]

theorem updateXc_specF {xc gT : Arr (Fl R)} {c v : Nat → Fl R} (hx : IsVec xc n c) (hg : IsVec gT n v) (r : Fl R) :
    ∃ y, updateXc n xc gT r = .ok y ∧ IsVec y n (fun i => c i - r * v i) := by
  unfold updateXc
  obtain ⟨z, h1, h2⟩ := forRange_spec (fun k (z : Arr (Fl R)) => IsVec z n (fun i => if i < k then c i - r * v i else c i))
    (f := fun i xc => do
      let x ← xc.idx i
      let g ← gT.idx i
      xc.setIdx i (x - r * g)) (s := xc) (Nat.zero_le n) (hx.congr fun i _ => by simp) (by
    intro i z _ hi hz
    obtain ⟨z', a1, a2⟩ := hz.setIdx hi ((if i < i then c i - r * v i else c i) - r * v i)
    refine ⟨z', ?_, a2.congr fun k _ => ?_⟩
    · simp only [hz.idx hi, hg.idx hi, Res.ok_bind, a1]
    · unfold upd1
      by_cases hk : k = i
      · subst hk; simp
      · have : k < i + 1 ↔ k < i := by omega
        simp [hk, this])
  exact ⟨z, h1, h2.congr fun i hi => by simp [hi]⟩

/-- the update of a diagonal `EllStable` in rounded arithmetic -/
theorem updateCore_diagF {s : EllStable (Fl R)} {d c v : Nat → Fl R} (hn : 0 < n) (hm : IsMat s.mq n n (dgF d))
    (hx : IsVec s.xc n c) (hg : IsVec g n v) (hv : ∀ i < n, R.Rep (v i).val) (strategy : Fl R → CutStatus × Triple (Fl R))
    {st : CutStatus} {ρ σ δ : Fl R} (hs : strategy (s.kappa * sumTo n fun i => v i * d i * v i) = (st, ρ, σ, δ)) :
    ∃ s', s.updateCore g strategy = .ok (st, s') ∧ s'.helper = s.helper ∧
      s'.tsq = s.kappa * (sumTo n fun i => v i * d i * v i) ∧
      (st ≠ .success → IsMat s'.mq n n (dgF d) ∧ IsVec s'.xc n c ∧ s'.kappa = s.kappa) ∧
      (st = .success →
        IsMat s'.mq n n (dgF fun k => d k *
          (ttF ((sumTo n fun i => v i * d i * v i) / (σ / (1 - σ))) (fun i => v i * d i * v i) k /
           ttF ((sumTo n fun i => v i * d i * v i) / (σ / (1 - σ))) (fun i => v i * d i * v i) (k + 1))) ∧
        IsVec s'.xc n (fun i => c i - ρ / (sumTo n fun i => v i * d i * v i) * (v i * d i)) ∧
        s'.kappa = s.kappa * δ) := by
  obtain ⟨⟨mq1, w⟩, a1, a2, a3⟩ := forward_diagF hm hg hv
  obtain ⟨z, b1, b2⟩ := scaleDiag_diagF a2 a3
  obtain ⟨⟨gg, om⟩, c1, c2, c3⟩ := calcOmega_specF b2 a3
  simp only at a2 a3 c2 c3
  subst c3
  unfold updateCore
  simp only [hx.len', a1, Res.ok_bind, b1, c1, hs]
  by_cases hst : st = .success
  · subst hst
    obtain ⟨gT, d1, d2⟩ := backward_diagF a2 b2 fun i _ => Fl.rep_mul _ _
    obtain ⟨xc, e1, e2⟩ := updateXc_specF hx d2 (ρ / sumTo n fun i => v i * d i * v i)
    obtain ⟨mq2, f1, f2⟩ := rankOne_diagF hn a2 b2 c2 (sumTo n fun i => v i * d i * v i) σ
    exact ⟨{ s with mq := mq2, xc := xc, tsq := s.kappa * (sumTo n fun i => v i * d i * v i), kappa := s.kappa * δ },
      by simp [d1, e1, f1], rfl, rfl, fun h => absurd rfl h, fun _ => ⟨f2, e2, rfl⟩⟩
  · exact ⟨{ s with mq := mq1, tsq := s.kappa * (sumTo n fun i => v i * d i * v i) },
      by simp [hst], rfl, rfl, fun _ => ⟨a2, hx, rfl⟩, fun h => absurd h hst⟩

end EllStable
end Ellalgo

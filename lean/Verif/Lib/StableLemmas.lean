import Verif.Spec.Stable
import Verif.Lib.VecOps
import Verif.Lib.EllBridge
import Mathlib.Algebra.BigOperators.Fin

/-! `EllStable.updateCore` on a diagonal matrix, at `ℝ`. -/

namespace Ellalgo
open Matrix

namespace EllStable
variable {n : Nat} {mq z w g : Arr ℝ}

/-- diagonal matrix as a function of two natural indices -/
def dg (d : Nat → ℝ) (i j : Nat) : ℝ := if i = j then d i else 0

theorem dg_off {d : Nat → ℝ} {i j : Nat} (h : i ≠ j) : dg d i j = 0 := if_neg h
theorem dg_diag (d : Nat → ℝ) (i : Nat) : dg d i i = d i := if_pos rfl

theorem setIdx_same {m : Nat → Nat → ℝ} (h : IsMat mq n n m) {i j : Nat} (hi : i < n) (hj : j < n) {x : ℝ}
    (hx : x = m i j) : ∃ mq', mq.setIdx (i * n + j) x = .ok mq' ∧ IsMat mq' n n m := by
  obtain ⟨mq', h1, h2⟩ := h.setIdx hi hj x
  refine ⟨mq', h1, h2.congr fun a b _ _ => ?_⟩
  unfold upd2
  split
  · rename_i hab; rw [hab.1, hab.2, hx]
  · rfl

theorem vsetIdx_same {v : Nat → ℝ} (h : IsVec g n v) {i : Nat} (hi : i < n) {x : ℝ}
    (hx : x = v i) : ∃ g', g.setIdx i x = .ok g' ∧ IsVec g' n v := by
  obtain ⟨g', h1, h2⟩ := h.setIdx hi x
  refine ⟨g', h1, h2.congr fun a _ => ?_⟩
  unfold upd1
  split
  · rename_i hab; rw [hab, hx]
  · rfl

theorem forward_diag {d v : Nat → ℝ} (hm : IsMat mq n n (dg d)) (hg : IsVec g n v) :
    ∃ st, forward n mq g = .ok st ∧ IsMat st.1 n n (dg d) ∧ IsVec st.2 n v := by
  unfold forward
  rcases Nat.lt_or_ge n 2 with h2 | h2
  · rw [forRange_empty (by omega)]
    exact ⟨_, rfl, hm, hg⟩
  · apply forRange_spec (fun _ (st : Arr ℝ × Arr ℝ) => IsMat st.1 n n (dg d) ∧ IsVec st.2 n v) (by omega) ⟨hm, hg⟩
    rintro i ⟨mq, g⟩ h1 hi ⟨hm, hg⟩
    apply forRange_spec (fun _ (st : Arr ℝ × Arr ℝ) => IsMat st.1 n n (dg d) ∧ IsVec st.2 n v) (by omega) ⟨hm, hg⟩
    rintro j ⟨mq, g⟩ - hj ⟨hm, hg⟩
    have hj' : j < n := by omega
    have e0 : dg d j i * v j = 0 := by rw [dg_off (by omega), zero_mul]
    obtain ⟨mq', a1, a2⟩ := setIdx_same hm hi hj' (x := dg d j i * v j) (by rw [e0, dg_off (by omega)])
    obtain ⟨g', b1, b2⟩ := vsetIdx_same hg hi (x := v i - dg d j i * v j) (by rw [e0, sub_zero])
    refine ⟨(mq', g'), ?_, a2, b2⟩
    simp only [hm.getij hj' hi, hg.idx hj', Res.ok_bind, a1, hg.idx hi, b1]

theorem backward_diag {d v : Nat → ℝ} (hm : IsMat mq n n (dg d)) (hg : IsVec g n v) :
    ∃ g', backward n mq g = .ok g' ∧ IsVec g' n v := by
  unfold backward
  rcases Nat.lt_or_ge n 1 with h2 | h2
  · have : n = 0 := by omega
    subst this
    exact ⟨g, rfl, hg⟩
  · apply forDown_spec (fun _ (g : Arr ℝ) => IsVec g n v) h2 hg
    intro i g h1 hi hg
    apply forRange_spec (fun _ (g : Arr ℝ) => IsVec g n v) (by omega) hg
    intro j g hj1 hj hg
    have e0 : v (i - 1) - dg d j (i - 1) * v j = v (i - 1) := by rw [dg_off (by omega), zero_mul, sub_zero]
    obtain ⟨g', b1, b2⟩ := vsetIdx_same hg (by omega : i - 1 < n) e0
    refine ⟨g', ?_, b2⟩
    simp only [hg.idx (by omega : i - 1 < n), hm.getij hj (by omega : i - 1 < n), hg.idx hj, Res.ok_bind, b1]

theorem scaleDiag_diag {d v : Nat → ℝ} (hm : IsMat mq n n (dg d)) (hg : IsVec g n v) :
    ∃ z, scaleDiag n mq g = .ok z ∧ IsVec z n (fun i => v i * d i) := by
  unfold scaleDiag
  obtain ⟨z, h1, h2⟩ := forRange_spec (fun k (z : Arr ℝ) => IsVec z n (fun i => if i < k then v i * d i else v i))
    (f := fun i v => do
      let x ← v.idx i
      let d ← mq.get i i
      v.setIdx i (x * d)) (s := g) (Nat.zero_le n) (hg.congr fun i _ => by simp) (by
    intro i z _ hi hz
    obtain ⟨z', a1, a2⟩ := hz.setIdx hi ((if i < i then v i * d i else v i) * d i)
    refine ⟨z', ?_, a2.congr fun k _ => ?_⟩
    · simp only [hz.idx hi, hm.getij hi hi, dg_diag, Res.ok_bind, a1]
    · unfold upd1
      by_cases hk : k = i
      · subst hk; simp
      · have : k < i + 1 ↔ k < i := by omega
        simp [hk, this])
  exact ⟨z, h1, h2.congr fun i hi => by simp [hi]⟩

theorem calcOmega_spec {u v : Nat → ℝ} (hz : IsVec z n u) (hw : IsVec w n v) :
    ∃ st, calcOmega n z w = .ok st ∧ IsVec st.1 n (fun i => u i * v i) ∧ st.2 = sumTo n fun i => u i * v i := by
  unfold calcOmega
  obtain ⟨st, h1, h2, h3⟩ := forRange_spec (σ := Arr ℝ × ℝ)
    (fun k st => IsVec st.1 n (fun i => if i < k then u i * v i else u i) ∧ st.2 = sumTo k fun i => u i * v i)
    (f := fun i (ggT, omega) => do
    let x ← ggT.idx i
    let y ← w.idx i
    let ggT ← ggT.setIdx i (x * y)
    let p ← ggT.idx i
    .ok (ggT, omega + p)) (s := (z, (0 : ℝ))) (Nat.zero_le n) ⟨hz.congr fun i _ => by simp, rfl⟩ (by
    rintro i ⟨y, om⟩ _ hi ⟨hy, ho⟩
    simp only at hy ho
    obtain ⟨y', a1, a2⟩ := hy.setIdx hi (u i * v i)
    refine ⟨(y', om + u i * v i), ?_, a2.congr fun k _ => ?_, ?_⟩
    · simp only [hy.idx hi, hw.idx hi, Res.ok_bind, a1, a2.idx hi, upd1, if_true, lt_irrefl, if_false]
    · unfold upd1
      by_cases hk : k = i
      · subst hk; simp
      · have : k < i + 1 ↔ k < i := by omega
        simp [hk, this]
    · rw [sumTo, ← ho])
  exact ⟨st, h1, h2.congr fun i hi => by simp [hi], h3⟩

/-- partial sums the rank-one update runs through -/
noncomputable def tt (t0 : ℝ) (p : Nat → ℝ) (k : Nat) : ℝ := t0 + sumTo k p

theorem rankOne_diag {ggT : Arr ℝ} {d u p : Nat → ℝ} (hn : 0 < n) (hm : IsMat mq n n (dg d)) (hz : IsVec z n u)
    (hp : IsVec ggT n p) (ω σ : ℝ) :
    ∃ mq', rankOne n mq z ggT ω σ = .ok mq' ∧
      IsMat mq' n n (dg fun k => d k * (tt (ω / (σ / (1 - σ))) p k / tt (ω / (σ / (1 - σ))) p (k + 1))) := by
  set t := tt (ω / (σ / (1 - σ))) p with ht
  have t0 : t 0 = ω / (σ / (1 - σ)) := by simp [ht, tt, sumTo]
  have ts : ∀ k, t (k + 1) = t k + p k := fun k => by rw [ht]; simp only [tt, sumTo]; ring
  unfold rankOne
  have hupd : ∀ (k : Nat) (hk : k < n) (mq : Arr ℝ),
      IsMat mq n n (dg fun i => if i < k then d i * (t i / t (i + 1)) else d i) →
      ∃ mq', mq.setIdx (k * n + k) (d k * (t k / t (k + 1))) = .ok mq' ∧
        IsMat mq' n n (dg fun i => if i < k + 1 then d i * (t i / t (i + 1)) else d i) := by
    intro k hk mq hmq
    obtain ⟨mq', a1, a2⟩ := hmq.setIdx hk hk (d k * (t k / t (k + 1)))
    refine ⟨mq', a1, a2.congr fun i j _ _ => ?_⟩
    unfold upd2 dg
    by_cases hij : i = j
    · subst hij
      by_cases hik : i = k
      · subst hik; simp
      · have : i < k + 1 ↔ i < k := by omega
        simp [hik, this]
    · rw [if_neg (by rintro ⟨rfl, rfl⟩; exact hij rfl), if_neg hij, if_neg hij]
  obtain ⟨st, h1, h2, h3⟩ := forRange_spec (σ := Arr ℝ × ℝ)
    (fun k st => IsMat st.1 n n (dg fun i => if i < k then d i * (t i / t (i + 1)) else d i) ∧ st.2 = t k)
    (f := fun j (mq, oldt) => do
    let p ← ggT.idx j
    let temp := oldt + p
    let zj ← z.idx j
    let beta2 := zj / temp
    let d ← mq.idx (j * n + j)
    let mq ← mq.setIdx (j * n + j) (d * (oldt / temp))
    let rowStart := j * n
    let mq ← forRange (j + 1) n mq fun l mq => do
      let old ← mq.idx (rowStart + l)
      let m ← mq.get l j
      mq.setIdx (rowStart + l) (old + beta2 * m)
    .ok (mq, temp)) (s := (mq, ω / (σ / (1 - σ)))) (Nat.zero_le (n - 1))
    ⟨hm.congr fun i j _ _ => by simp, t0.symm⟩ (by
    rintro j ⟨mq, oldt⟩ - hj ⟨hmq, ho⟩
    simp only at ho hmq
    subst ho
    have hj' : j < n := by omega
    obtain ⟨mq1, a1, a2⟩ := hupd j hj' mq hmq
    obtain ⟨mq2, b1, b2⟩ := forRange_spec (σ := Arr ℝ)
      (fun _ mq => IsMat mq n n (dg fun i => if i < j + 1 then d i * (t i / t (i + 1)) else d i))
      (f := fun l mq => do
        let old ← mq.idx (j * n + l)
        let m ← mq.get l j
        mq.setIdx (j * n + l) (old + u j / (t j + p j) * m)) (s := mq1) (lo := j + 1) (hi := n) (by omega) a2 (by
      intro l mq hl1 hl hmq
      have e0 : dg (fun i => if i < j + 1 then d i * (t i / t (i + 1)) else d i) j l + u j / (t j + p j) *
          dg (fun i => if i < j + 1 then d i * (t i / t (i + 1)) else d i) l j =
          dg (fun i => if i < j + 1 then d i * (t i / t (i + 1)) else d i) j l := by
        rw [dg_off (by omega : l ≠ j), mul_zero, add_zero]
      obtain ⟨mq', c1, c2⟩ := setIdx_same hmq hj' hl e0
      exact ⟨mq', by simp only [hmq.idx hj' hl, hmq.getij hl hj', Res.ok_bind, c1], c2⟩)
    refine ⟨(mq2, t (j + 1)), ?_, b2, rfl⟩
    rw [ts] at a1 
    simp only [hp.idx hj', hz.idx hj', hmq.idx hj' hj', dg_diag, lt_irrefl, if_false, Res.ok_bind, a1, b1, ts])
  obtain ⟨mq1, a1, a2⟩ := hupd (n - 1) (by omega) st.1 h2
  have hd := h2.idx (by omega : n - 1 < n) (by omega : n - 1 < n)
  refine ⟨mq1, ?_, a2.congr fun i j hi hj => ?_⟩
  · obtain ⟨mqs, told⟩ := st
    simp only at h3 h2 a1 hd
    subst h3
    rw [ts] at a1
    simp only [dg_diag, lt_irrefl, if_false] at hd
    simp only [decide_eq_true hn, Res.assert_true, Res.ok_bind, hp.idx (by omega : n - 1 < n)]
    rw [h1]
    simp only [Res.ok_bind, hd, a1]
  · have : i < n - 1 + 1 := by omega
    simp only [dg, this, if_true]

theorem updateXc_spec {xc gT : Arr ℝ} {c v : Nat → ℝ} (hx : IsVec xc n c) (hg : IsVec gT n v) (r : ℝ) :
    ∃ y, updateXc n xc gT r = .ok y ∧ IsVec y n (fun i => c i - r * v i) := by
  have h1 : RV (n := n) xc (fun i => c i) := ⟨hx.shape, hx.toVec⟩
  have h2 : RV (n := n) gT (fun i => v i) := ⟨hg.shape, hg.toVec⟩
  obtain ⟨y, a1, a2⟩ := cgAxmy_spec r h2 h1
  refine ⟨y, a1, a2.isVec.congr fun i hi => ?_⟩
  simp [ext0, hi]

/-- the update of a diagonal `EllStable` -/
theorem updateCore_diag {s : EllStable ℝ} {d c v : Nat → ℝ} (hn : 0 < n) (hm : IsMat s.mq n n (dg d))
    (hx : IsVec s.xc n c) (hg : IsVec g n v) (strategy : ℝ → CutStatus × Triple ℝ) {st : CutStatus} {ρ σ δ : ℝ}
    (hs : strategy (s.kappa * sumTo n fun i => v i * d i * v i) = (st, ρ, σ, δ)) :
    ∃ s', s.updateCore g strategy = .ok (st, s') ∧ s'.helper = s.helper ∧
      s'.tsq = s.kappa * (sumTo n fun i => v i * d i * v i) ∧
      (st ≠ .success → IsMat s'.mq n n (dg d) ∧ IsVec s'.xc n c ∧ s'.kappa = s.kappa) ∧
      (st = .success →
        IsMat s'.mq n n (dg fun k => d k *
          (tt ((sumTo n fun i => v i * d i * v i) / (σ / (1 - σ))) (fun i => v i * d i * v i) k /
           tt ((sumTo n fun i => v i * d i * v i) / (σ / (1 - σ))) (fun i => v i * d i * v i) (k + 1))) ∧
        IsVec s'.xc n (fun i => c i - ρ / (sumTo n fun i => v i * d i * v i) * (v i * d i)) ∧
        s'.kappa = s.kappa * δ) := by
  obtain ⟨⟨mq1, w⟩, a1, a2, a3⟩ := forward_diag hm hg
  obtain ⟨z, b1, b2⟩ := scaleDiag_diag a2 a3
  obtain ⟨⟨gg, om⟩, c1, c2, c3⟩ := calcOmega_spec b2 a3
  simp only at a2 a3 c2 c3
  subst c3
  unfold updateCore
  simp only [hx.len', a1, Res.ok_bind, b1, c1, hs]
  by_cases hst : st = .success
  · subst hst
    obtain ⟨gT, d1, d2⟩ := backward_diag a2 b2
    obtain ⟨xc, e1, e2⟩ := updateXc_spec hx d2 (ρ / sumTo n fun i => v i * d i * v i)
    obtain ⟨mq2, f1, f2⟩ := rankOne_diag hn a2 b2 c2 (sumTo n fun i => v i * d i * v i) σ
    exact ⟨{ s with mq := mq2, xc := xc, tsq := s.kappa * (sumTo n fun i => v i * d i * v i), kappa := s.kappa * δ },
      by simp [d1, e1, f1], rfl, rfl, fun h => absurd rfl h, fun _ => ⟨f2, e2, rfl⟩⟩
  · exact ⟨{ s with mq := mq1, tsq := s.kappa * (sumTo n fun i => v i * d i * v i) },
      by simp [hst], rfl, rfl, fun _ => ⟨a2, hx, rfl⟩, fun h => absurd h hst⟩

theorem Diagonal.isMat {s : EllStable ℝ} (h : s.Diagonal n) : IsMat s.mq n n (dg fun i => s.mq.mat i i) := by
  refine h.shaped.1.isMat.congr fun i j hi hj => ?_
  unfold dg
  split
  · rename_i hij; rw [hij]
  · rename_i hij
    exact h.off ⟨i, hi⟩ ⟨j, hj⟩ (by simpa using hij)

theorem diagonal_of {s : EllStable ℝ} {d c : Nat → ℝ} (hm : IsMat s.mq n n (dg d)) (hx : IsVec s.xc n c) :
    s.Diagonal n :=
  ⟨⟨hm.shape, hx.shape⟩, fun i j hij => by
    rw [M, hm.toMat]
    exact dg_off (by simpa [Fin.ext_iff] using hij)⟩

theorem M_of {s : EllStable ℝ} {d : Nat → ℝ} (hm : IsMat s.mq n n (dg d)) :
    s.M n = diagonal fun i : Fin n => d i := by
  rw [M, hm.toMat]
  ext i j
  simp only [of_apply, dg, diagonal_apply, Fin.ext_iff]

theorem Diagonal.M_eq {s : EllStable ℝ} (h : s.Diagonal n) : s.M n = diagonal fun i => s.M n i i :=
  M_of h.isMat

theorem omega_eq (M : Matrix (Fin n) (Fin n) ℝ) (d : Nat → ℝ) (v : Fin n → ℝ) (v' : Nat → ℝ)
    (hv : ∀ i : Fin n, v' i = v i) (hM : M = diagonal fun i : Fin n => d i) :
    (sumTo n fun i => v' i * d i * v' i) = v ⬝ᵥ (M *ᵥ v) := by
  rw [sumTo_fin, hM]
  simp only [dotProduct, mulVec_diagonal, hv]
  exact Finset.sum_congr rfl fun i _ => by ring

end EllStable
end Ellalgo

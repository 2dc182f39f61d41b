import Verif.Spec.EllOps
import Verif.Lib.Loop

/-! `EllStable::update_core` on arrays of the right size: no step panics, sizes are kept, and only the first `n` entries of the
gradient are read. -/

namespace Ellalgo
variable {α : Type}

theorem forN_rel {σ τ : Type} {f : Nat → σ → Res σ} {f' : Nat → τ → Res τ} (P : σ → τ → Prop) (k : Nat) :
    ∀ (lo : Nat) (s : σ) (t : τ), P s t →
      (∀ i s t, lo ≤ i → i < lo + k → P s t → ∃ s' t', f i s = .ok s' ∧ f' i t = .ok t' ∧ P s' t') →
      ∃ s' t', forN k lo s f = .ok s' ∧ forN k lo t f' = .ok t' ∧ P s' t' := by
  induction k with
  | zero => exact fun lo s t h _ => ⟨s, t, rfl, rfl, h⟩
  | succ k ih =>
    intro lo s t h hs
    obtain ⟨s1, t1, h1, h2, h3⟩ := hs lo s t le_rfl (by omega) h
    obtain ⟨s2, t2, h4, h5, h6⟩ := ih (lo + 1) s1 t1 h3 fun i s t hi hi' => hs i s t (by omega) (by omega)
    exact ⟨s2, t2, by simp only [forN, h1, Res.ok_bind, h4], by simp only [forN, h2, Res.ok_bind, h5], h6⟩

/-- two loops that do not panic and keep their states related -/
theorem forRange_rel {σ τ : Type} {f : Nat → σ → Res σ} {f' : Nat → τ → Res τ} (P : σ → τ → Prop) {lo hi : Nat} {s : σ} {t : τ}
    (h : P s t) (hs : ∀ i s t, lo ≤ i → i < hi → P s t → ∃ s' t', f i s = .ok s' ∧ f' i t = .ok t' ∧ P s' t') :
    ∃ s' t', forRange lo hi s f = .ok s' ∧ forRange lo hi t f' = .ok t' ∧ P s' t' :=
  forN_rel P (hi - lo) lo s t h fun i s t h1 h2 => hs i s t h1 (by omega)

theorem forDown_rel {σ τ : Type} {f : Nat → σ → Res σ} {f' : Nat → τ → Res τ} (P : σ → τ → Prop) {lo hi : Nat} {s : σ} {t : τ}
    (h : P s t) (hs : ∀ i s t, lo ≤ i → i < hi → P s t → ∃ s' t', f i s = .ok s' ∧ f' i t = .ok t' ∧ P s' t') :
    ∃ s' t', forDown lo hi s f = .ok s' ∧ forDown lo hi t f' = .ok t' ∧ P s' t' := by
  have key : ∀ (k : Nat) (s : σ) (t : τ), P s t →
      (∀ i s t, lo ≤ i → i < lo + k → P s t → ∃ s' t', f i s = .ok s' ∧ f' i t = .ok t' ∧ P s' t') →
      ∃ s' t', forDownN k lo s f = .ok s' ∧ forDownN k lo t f' = .ok t' ∧ P s' t' := by
    intro k
    induction k with
    | zero => exact fun s t h _ => ⟨s, t, rfl, rfl, h⟩
    | succ k ih =>
      intro s t h hs
      obtain ⟨s1, t1, h1, h2, h3⟩ := hs (lo + k) s t (by omega) (by omega) h
      obtain ⟨s2, t2, h4, h5, h6⟩ := ih s1 t1 h3 fun i s t hi hi' => hs i s t (by omega) (by omega)
      exact ⟨s2, t2, by simp only [forDownN, h1, Res.ok_bind, h4], by simp only [forDownN, h2, Res.ok_bind, h5], h6⟩
  exact key (hi - lo) s t h fun i s t h1 h2 => hs i s t h1 (by omega)

/-- two arrays with at least `n` entries whose first `n` entries agree -/
def VEq (n : Nat) (v w : Arr α) : Prop :=
  n ≤ v.data.length ∧ n ≤ w.data.length ∧ ∀ i < n, v.data[i]? = w.data[i]?

theorem VEq.idx {n i : Nat} {v w : Arr α} (h : VEq n v w) (hi : i < n) : ∃ x, v.idx i = .ok x ∧ w.idx i = .ok x := by
  obtain ⟨h1, h2, h3⟩ := h
  refine ⟨v.data[i], ?_, ?_⟩
  · simp [Arr.idx, show i < v.data.length by omega]
  · simp [Arr.idx, ← h3 i hi, show i < v.data.length by omega]

theorem VEq.setIdx {n i : Nat} {v w : Arr α} (h : VEq n v w) (hi : i < n) (x : α) :
    ∃ v' w', v.setIdx i x = .ok v' ∧ w.setIdx i x = .ok w' ∧ VEq n v' w' := by
  obtain ⟨h1, h2, h3⟩ := h
  refine ⟨{ v with data := v.data.set i x }, { w with data := w.data.set i x }, by simp [Arr.setIdx]; omega,
    by simp [Arr.setIdx]; omega, by simpa using h1, by simpa using h2, ?_⟩
  intro k hk
  by_cases hik : i = k
  · subst hik
    simp [show i < v.data.length by omega, show i < w.data.length by omega]
  · simp [hik, h3 k hk]

theorem VEq.refl_of {n : Nat} {v : Arr α} (h : n ≤ v.data.length) : VEq n v v := ⟨h, h, fun _ _ => rfl⟩

theorem Arr.IsMatShape.get_ok {n i j : Nat} {a : Arr α} (h : a.IsMatShape n n) (hi : i < n) (hj : j < n) :
    ∃ x, a.get i j = .ok x ∧ a.idx (i * n + j) = .ok x := by
  have hl := rm_lt hi hj
  have : a.idx (i * n + j) = .ok (a.data[i * n + j]'(by rw [h.2.2]; exact hl)) := by
    simp [Arr.idx, h.2.2, hl]
  refine ⟨_, ?_, this⟩
  have h2 : a.is2d = true := by simp only [Arr.is2d, h.2.1]; simp; omega
  simp only [Arr.get, h2, Res.assert_true, Res.ok_bind, h.2.1]
  exact this

theorem Arr.IsMatShape.setIdx_ok {n i j : Nat} {a : Arr α} (h : a.IsMatShape n n) (hi : i < n) (hj : j < n) (x : α) :
    ∃ a', a.setIdx (i * n + j) x = .ok a' ∧ a'.IsMatShape n n := by
  have hl := rm_lt hi hj
  exact ⟨{ a with data := a.data.set (i * n + j) x }, by simp [Arr.setIdx, h.2.2, hl], h.1, h.2.1, by simp [h.2.2]⟩

theorem Arr.IsVecShape.setIdx_ok {n i : Nat} {a : Arr α} (h : a.IsVecShape n) (hi : i < n) (x : α) :
    ∃ a', a.setIdx i x = .ok a' ∧ a'.IsVecShape n :=
  ⟨{ a with data := a.data.set i x }, by simp [Arr.setIdx, h.2.2, hi], h.1, h.2.1, by simp [h.2.2]⟩

namespace EllStable
variable [Scalar α] {n : Nat}

theorem forward_rel {mq g g' : Arr α} (hm : mq.IsMatShape n n) (hg : VEq n g g') :
    ∃ mq' w w', forward n mq g = .ok (mq', w) ∧ forward n mq g' = .ok (mq', w') ∧ mq'.IsMatShape n n ∧ VEq n w w' := by
  obtain ⟨⟨m1, w⟩, ⟨m2, w'⟩, h1, h2, h3, h4, h5⟩ := forRange_rel
    (P := fun (s t : Arr α × Arr α) => s.1 = t.1 ∧ s.1.IsMatShape n n ∧ VEq n s.2 t.2)
    (lo := 1) (hi := n) (s := (mq, g)) (t := (mq, g'))
    (f := fun i st => forRange 0 i st fun j (mq, v) => do
      let m ← mq.get j i
      let vj ← v.idx j
      let val := m * vj
      let mq ← mq.setIdx (i * n + j) val
      let vi ← v.idx i
      let v ← v.setIdx i (vi - val)
      .ok (mq, v))
    (f' := fun i st => forRange 0 i st fun j (mq, v) => do
      let m ← mq.get j i
      let vj ← v.idx j
      let val := m * vj
      let mq ← mq.setIdx (i * n + j) val
      let vi ← v.idx i
      let v ← v.setIdx i (vi - val)
      .ok (mq, v)) ⟨rfl, hm, hg⟩ (by
      intro i s t hi1 hi2 hst
      refine forRange_rel (P := fun (s t : Arr α × Arr α) => s.1 = t.1 ∧ s.1.IsMatShape n n ∧ VEq n s.2 t.2) hst ?_
      rintro j ⟨a, v⟩ ⟨b, w⟩ - hj ⟨rfl, ha, hv⟩
      obtain ⟨x, hx, -⟩ := ha.get_ok (show j < n by omega) hi2
      obtain ⟨y, hy1, hy2⟩ := hv.idx (show j < n by omega)
      obtain ⟨a', ha1, ha2⟩ := ha.setIdx_ok hi2 (show j < n by omega) (x * y)
      obtain ⟨z, hz1, hz2⟩ := hv.idx hi2
      obtain ⟨v', w', hv1, hv2, hv3⟩ := hv.setIdx hi2 (z - x * y)
      dsimp only at hx ha1 hy1 hy2 hz1 hz2 hv1 hv2
      exact ⟨(a', v'), (a', w'), by simp only [hx, hy1, ha1, hz1, hv1, Res.ok_bind],
        by simp only [hx, hy2, ha1, hz2, hv2, Res.ok_bind], rfl, ha2, hv3⟩)
  dsimp only at h3 h4 h5
  exact ⟨m1, w, w', h1, by rw [h3]; exact h2, h4, h5⟩

theorem scaleDiag_rel {mq g g' : Arr α} (hm : mq.IsMatShape n n) (hg : VEq n g g') :
    ∃ w w', scaleDiag n mq g = .ok w ∧ scaleDiag n mq g' = .ok w' ∧ VEq n w w' := by
  refine forRange_rel (P := VEq n) hg ?_
  intro i v w _ hi hv
  obtain ⟨x, hx1, hx2⟩ := hv.idx hi
  obtain ⟨d, hd, -⟩ := hm.get_ok hi hi
  obtain ⟨v', w', h1, h2, h3⟩ := hv.setIdx hi (x * d)
  exact ⟨v', w', by simp only [hx1, hd, h1, Res.ok_bind], by simp only [hx2, hd, h2, Res.ok_bind], h3⟩

theorem calcOmega_rel {z z' w w' : Arr α} (hz : VEq n z z') (hw : VEq n w w') :
    ∃ p p' om, calcOmega n z w = .ok (p, om) ∧ calcOmega n z' w' = .ok (p', om) ∧ VEq n p p' := by
  obtain ⟨⟨p, o1⟩, ⟨p', o2⟩, h1, h2, h3, h4⟩ := forRange_rel
    (P := fun (s t : Arr α × α) => s.2 = t.2 ∧ VEq n s.1 t.1) (lo := 0) (hi := n) (s := (z, (0 : α))) (t := (z', (0 : α)))
    (f := fun i (ggT, omega) => do
      let x ← ggT.idx i
      let y ← w.idx i
      let ggT ← ggT.setIdx i (x * y)
      let p ← ggT.idx i
      .ok (ggT, omega + p))
    (f' := fun i (ggT, omega) => do
      let x ← ggT.idx i
      let y ← w'.idx i
      let ggT ← ggT.setIdx i (x * y)
      let p ← ggT.idx i
      .ok (ggT, omega + p)) ⟨rfl, hz⟩ (by
      rintro i ⟨a, o⟩ ⟨b, o'⟩ - hi ⟨rfl, hab⟩
      obtain ⟨x, hx1, hx2⟩ := hab.idx hi
      obtain ⟨y, hy1, hy2⟩ := hw.idx hi
      obtain ⟨a', b', ha, hb, hab'⟩ := hab.setIdx hi (x * y)
      obtain ⟨q, hq1, hq2⟩ := hab'.idx hi
      dsimp only at hx1 hx2 ha hb
      exact ⟨(a', o + q), (b', o + q), by simp only [hx1, hy1, ha, hq1, Res.ok_bind], by simp only [hx2, hy2, hb, hq2, Res.ok_bind],
        rfl, hab'⟩)
  dsimp only at h3 h4
  exact ⟨p, p', o1, h1, by rw [h3]; exact h2, h4⟩

theorem backward_rel {mq z z' : Arr α} (hm : mq.IsMatShape n n) (hz : VEq n z z') :
    ∃ w w', backward n mq z = .ok w ∧ backward n mq z' = .ok w' ∧ VEq n w w' := by
  refine forDown_rel (P := VEq n) hz ?_
  intro i v w hi1 hi2 hv
  refine forRange_rel (P := VEq n) hv ?_
  intro j v w hj1 hj2 hv
  obtain ⟨x, hx1, hx2⟩ := hv.idx (show i - 1 < n by omega)
  obtain ⟨d, hd, -⟩ := hm.get_ok hj2 (show i - 1 < n by omega)
  obtain ⟨y, hy1, hy2⟩ := hv.idx hj2
  obtain ⟨v', w', h1, h2, h3⟩ := hv.setIdx (show i - 1 < n by omega) (x - d * y)
  exact ⟨v', w', by simp only [hx1, hd, hy1, h1, Res.ok_bind], by simp only [hx2, hd, hy2, h2, Res.ok_bind], h3⟩

theorem updateXc_rel {xc g g' : Arr α} (hx : xc.IsVecShape n) (hg : VEq n g g') (r : α) :
    ∃ xc', updateXc n xc g r = .ok xc' ∧ updateXc n xc g' r = .ok xc' ∧ xc'.IsVecShape n := by
  obtain ⟨x1, x2, h1, h2, h3, h4⟩ := forRange_rel
    (P := fun (s t : Arr α) => s = t ∧ s.IsVecShape n) (lo := 0) (hi := n) (s := xc) (t := xc)
    (f := fun i xc => do
      let x ← xc.idx i
      let g ← g.idx i
      xc.setIdx i (x - r * g))
    (f' := fun i xc => do
      let x ← xc.idx i
      let g ← g'.idx i
      xc.setIdx i (x - r * g)) ⟨rfl, hx⟩ (by
      rintro i a b - hi ⟨rfl, ha⟩
      obtain ⟨x, hx1, -⟩ := (VEq.refl_of (n := n) ha.2.2.ge).idx hi
      obtain ⟨y, hy1, hy2⟩ := hg.idx hi
      obtain ⟨a', h1, h2⟩ := ha.setIdx_ok hi (x - r * y)
      exact ⟨a', a', by simp only [hx1, hy1, h1, Res.ok_bind], by simp only [hx1, hy2, h1, Res.ok_bind], rfl, h2⟩)
  exact ⟨x1, h1, by rw [h3]; exact h2, h4⟩

theorem rankOne_rel (hn : 0 < n) {mq z z' p p' : Arr α} (hm : mq.IsMatShape n n) (hz : VEq n z z') (hp : VEq n p p')
    (om sg : α) : ∃ mq', rankOne n mq z p om sg = .ok mq' ∧ rankOne n mq z' p' om sg = .ok mq' ∧ mq'.IsMatShape n n := by
  unfold rankOne
  simp only [hn, decide_true, Res.assert_true, Res.ok_bind]
  obtain ⟨⟨a1, o1⟩, ⟨a2, o2⟩, h1, h2, h3, h4⟩ := forRange_rel
    (P := fun (s t : Arr α × α) => s = t ∧ s.1.IsMatShape n n) (lo := 0) (hi := n - 1)
    (s := (mq, om / (sg / (1 - sg)))) (t := (mq, om / (sg / (1 - sg))))
    (f := fun j (mq, oldt) => do
      let p ← p.idx j
      let zj ← z.idx j
      let d ← mq.idx (j * n + j)
      let mq ← mq.setIdx (j * n + j) (d * (oldt / (oldt + p)))
      let mq ← forRange (j + 1) n mq fun l mq => do
        let old ← mq.idx (j * n + l)
        let m ← mq.get l j
        mq.setIdx (j * n + l) (old + zj / (oldt + p) * m)
      .ok (mq, oldt + p))
    (f' := fun j (mq, oldt) => do
      let p ← p'.idx j
      let zj ← z'.idx j
      let d ← mq.idx (j * n + j)
      let mq ← mq.setIdx (j * n + j) (d * (oldt / (oldt + p)))
      let mq ← forRange (j + 1) n mq fun l mq => do
        let old ← mq.idx (j * n + l)
        let m ← mq.get l j
        mq.setIdx (j * n + l) (old + zj / (oldt + p) * m)
      .ok (mq, oldt + p)) ⟨rfl, hm⟩ (by
      rintro j ⟨a, o⟩ ⟨b, o'⟩ - hj ⟨hab, ha⟩
      obtain ⟨rfl, rfl⟩ := Prod.mk.injEq _ _ _ _ ▸ hab
      have hj' : j < n := by omega
      obtain ⟨x, hx1, hx2⟩ := hp.idx hj'
      obtain ⟨y, hy1, hy2⟩ := hz.idx hj'
      obtain ⟨d, -, hd⟩ := Arr.IsMatShape.get_ok ha hj' hj'
      obtain ⟨a', ha1, ha2⟩ := Arr.IsMatShape.setIdx_ok ha hj' hj' (d * (o / (o + x)))
      obtain ⟨a2, -, h1, -, -, h2⟩ := forRange_rel (P := fun (s t : Arr α) => s = t ∧ s.IsMatShape n n)
        (lo := j + 1) (hi := n) (s := a') (t := a')
        (f := fun l mq => do
          let old ← mq.idx (j * n + l)
          let m ← mq.get l j
          mq.setIdx (j * n + l) (old + y / (o + x) * m))
        (f' := fun l mq => do
          let old ← mq.idx (j * n + l)
          let m ← mq.get l j
          mq.setIdx (j * n + l) (old + y / (o + x) * m)) ⟨rfl, ha2⟩ (by
          rintro l c c' hl1 hl2 ⟨rfl, hc⟩
          obtain ⟨s, -, hs⟩ := hc.get_ok hj' hl2
          obtain ⟨t, ht, -⟩ := hc.get_ok hl2 hj'
          obtain ⟨c', hc1, hc2⟩ := hc.setIdx_ok hj' hl2 (s + y / (o + x) * t)
          exact ⟨c', c', by simp only [hs, ht, hc1, Res.ok_bind], by simp only [hs, ht, hc1, Res.ok_bind], rfl, hc2⟩)
      dsimp only at hd ha1
      exact ⟨(a2, o + x), (a2, o + x), by simp only [hx1, hy1, hd, ha1, h1, Res.ok_bind],
        by simp only [hx2, hy2, hd, ha1, h1, Res.ok_bind], rfl, h2⟩)
  have hl : n - 1 < n := by omega
  obtain ⟨x, hx1, hx2⟩ := hp.idx hl
  obtain ⟨d, -, hd⟩ := Arr.IsMatShape.get_ok h4 hl hl
  obtain ⟨a', ha1, ha2⟩ := Arr.IsMatShape.setIdx_ok h4 hl hl (d * (o1 / (o1 + x)))
  dsimp only at hd ha1
  refine ⟨a', ?_, ?_, ha2⟩
  · rw [h1]
    simp only [Res.ok_bind, hx1, hd, ha1]
  · rw [h2, ← h3]
    simp only [Res.ok_bind, hx2, hd, ha1]

/-- `update_core` on an `n`-dimensional state, with two gradients that agree in their first `n` entries -/
theorem updateCore_rel (hn : 0 < n) {e : EllStable α} (he : e.Shaped n) {g g' : Arr α} (hg : VEq n g g')
    (strategy : α → CutStatus × Triple α) :
    ∃ st e', e.updateCore g strategy = .ok (st, e') ∧ e.updateCore g' strategy = .ok (st, e') ∧ e'.Shaped n := by
  have hlen : e.xc.len = n := he.2.2.2
  obtain ⟨mq1, w, w', f1, f2, hm1, hw⟩ := forward_rel he.1 hg
  obtain ⟨z, z', s1, s2, hz⟩ := scaleDiag_rel hm1 hw
  obtain ⟨p, p', om, c1, c2, hp⟩ := calcOmega_rel hz hw
  unfold updateCore
  simp only [hlen, f1, f2, s1, s2, c1, c2, Res.ok_bind]
  rcases hst : strategy (e.kappa * om) with ⟨st, ρ, σ, δ⟩
  simp only
  by_cases hs : (st != CutStatus.success) = true
  · simp only [hs, if_true]
    exact ⟨_, _, rfl, rfl, hm1, he.2⟩
  · obtain ⟨gT, gT', b1, b2, hb⟩ := backward_rel hm1 hz
    obtain ⟨xc', x1, x2, hx⟩ := updateXc_rel he.2 hb (ρ / om)
    obtain ⟨mq2, r1, r2, hm2⟩ := rankOne_rel hn hm1 hz hp om σ
    simp only [if_neg hs, b1, b2, x1, x2, r1, r2, Res.ok_bind]
    exact ⟨_, _, rfl, rfl, hm2, hx⟩

end EllStable
end Ellalgo

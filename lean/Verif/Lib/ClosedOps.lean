import Verif.Spec.InfStart
import Verif.Lib.EllLemmas
import Verif.Lib.StableLemmas

/-! A property of numbers that survives every arithmetic operation survives every update of an ellipsoid. -/

namespace Ellalgo

/-- `P` holds of the result, if there is one -/
def Res.All {β : Type} (P : β → Prop) : Res β → Prop
  | .ok b => P b
  | .panic => True

section res
variable {β γ : Type} {P : β → Prop} {Q : γ → Prop}

theorem Res.All.bind {x : Res β} {f : β → Res γ} (hx : x.All P) (hf : ∀ b, P b → (f b).All Q) : (x >>= f).All Q := by
  cases x with
  | ok b => exact hf b hx
  | panic => trivial

theorem Res.All.mono {P' : β → Prop} {x : Res β} (hx : x.All P) (h : ∀ b, P b → P' b) : x.All P' := by
  cases x with
  | ok b => exact h b hx
  | panic => trivial

theorem Res.All.assert {c : Bool} {f : Unit → Res γ} (hf : (f ()).All Q) : (Res.assert c >>= f).All Q := by
  cases c
  · trivial
  · exact hf

theorem forN_all {σ : Type} {P : σ → Prop} {f : Nat → σ → Res σ} (h : ∀ i s, P s → (f i s).All P) (k : Nat) :
    ∀ lo s, P s → (forN k lo s f).All P := by
  induction k with
  | zero => intro lo s hs; exact hs
  | succ k ih => intro lo s hs; exact (h lo s hs).bind fun b hb => ih _ b hb

theorem forRange_all {σ : Type} {P : σ → Prop} {f : Nat → σ → Res σ} {lo hi : Nat} {s : σ} (hs : P s)
    (h : ∀ i s, P s → (f i s).All P) : (forRange lo hi s f).All P := forN_all h _ _ _ hs

theorem forDownN_all {σ : Type} {P : σ → Prop} {f : Nat → σ → Res σ} (h : ∀ i s, P s → (f i s).All P) (k lo : Nat) :
    ∀ s, P s → (forDownN k lo s f).All P := by
  induction k with
  | zero => intro s hs; exact hs
  | succ k ih => intro s hs; exact (h _ s hs).bind fun b hb => ih b hb

theorem forDown_all {σ : Type} {P : σ → Prop} {f : Nat → σ → Res σ} {lo hi : Nat} {s : σ} (hs : P s)
    (h : ∀ i s, P s → (f i s).All P) : (forDown lo hi s f).All P := forDownN_all h _ _ _ hs

theorem mapM_all {ι : Type} {f : ι → Res β} (h : ∀ i, (f i).All P) (l : List ι) :
    (l.mapM f).All fun r => ∀ v ∈ r, P v := by
  induction l with
  | nil => intro v hv; simp at hv
  | cons i l ih =>
    simp only [List.mapM_cons]
    refine (h i).bind fun b hb => ih.bind fun r hr => ?_
    intro v hv
    rcases List.mem_cons.mp hv with rfl | hv
    · exact hb
    · exact hr v hv

end res

variable {α : Type} [Scalar α]

/-- `P` survives every arithmetic operation -/
structure Closed (P : α → Prop) : Prop where
  zero : P 0
  one : P 1
  nat : ∀ k : Nat, P (nat k)
  add : ∀ {a b}, P a → P b → P (a + b)
  sub : ∀ {a b}, P a → P b → P (a - b)
  mul : ∀ {a b}, P a → P b → P (a * b)
  div : ∀ {a b}, P a → P b → P (a / b)
  neg : ∀ {a}, P a → P (-a)
  sqrt : ∀ {a}, P a → P (Scalar.sqrt a)

variable {P : α → Prop}

namespace Arr

omit [Scalar α] in
theorem All.idx {a : Arr α} (h : a.All P) (i : Nat) : (a.idx i).All P := by
  simp only [Arr.idx]
  cases hi : a.data[i]? with
  | none => trivial
  | some v => exact h v (List.mem_of_getElem? hi)

omit [Scalar α] in
theorem All.get {a : Arr α} (h : a.All P) (i j : Nat) : (a.get i j).All P := Res.All.assert (h.idx _)

omit [Scalar α] in
theorem All.setIdx {a : Arr α} (h : a.All P) (i : Nat) {v : α} (hv : P v) : (a.setIdx i v).All (Arr.All P) := by
  simp only [Arr.setIdx]
  split
  · intro u hu
    rcases List.mem_or_eq_of_mem_set hu with h1 | rfl
    · exact h u h1
    · exact hv
  · trivial

omit [Scalar α] in
theorem All.map {a : Arr α} (h : a.All P) {f : α → α} (hf : ∀ v, P v → P (f v)) : (a.map f).All P := by
  intro u hu
  simp only [Arr.map, List.mem_map] at hu
  obtain ⟨v, hv, rfl⟩ := hu
  exact hf v (h v hv)

omit [Scalar α] in
theorem All.zipWith {a b : Arr α} (ha : a.All P) (hb : b.All P) {f : α → α → α} (hf : ∀ u v, P u → P v → P (f u v)) :
    (Arr.zipWith f a b).All (Arr.All P) := by
  unfold Arr.zipWith
  refine Res.All.assert ?_
  intro u hu
  obtain ⟨i, hi, rfl⟩ := List.mem_iff_getElem.mp hu
  rw [List.getElem_zipWith]
  exact hf _ _ (ha _ (List.getElem_mem _)) (hb _ (List.getElem_mem _))

theorem foldl_all (hP : Closed P) (l : List α) : ∀ s, P s → (∀ v ∈ l, P v) → P (l.foldl (· + ·) s) := by
  induction l with
  | nil => intro s hs _; exact hs
  | cons u l ih =>
    intro s hs hl
    exact ih (s + u) (hP.add hs (hl u (by simp))) fun v hv => hl v (by simp [hv])

theorem All.dot (hP : Closed P) {a b : Arr α} (ha : a.All P) (hb : b.All P) : (a.dot b).All P := by
  unfold Arr.dot
  refine Res.All.assert (Res.All.assert ?_)
  refine foldl_all hP _ 0 hP.zero fun v hv => ?_
  obtain ⟨i, hi, rfl⟩ := List.mem_iff_getElem.mp hv
  rw [List.getElem_zipWith]
  exact hP.mul (ha _ (List.getElem_mem _)) (hb _ (List.getElem_mem _))

theorem All.dotMv (hP : Closed P) {a x : Arr α} (ha : a.All P) (hx : x.All P) : (a.dotMv x).All (Arr.All P) := by
  unfold Arr.dotMv
  refine Res.All.assert (Res.All.assert (Res.All.assert ?_))
  refine (mapM_all (P := P) (fun i => ?_) _).bind fun r hr => hr
  refine forRange_all hP.zero fun j s hs => ?_
  exact (ha.idx _).bind fun u hu => (hx.idx _).bind fun v hv => hP.add hs (hP.mul hu hv)

theorem All.smul (hP : Closed P) {a : Arr α} (ha : a.All P) {s : α} (hs : P s) : (a.smul s).All P :=
  ha.map fun _ hv => hP.mul hv hs

end Arr

/-- all three numbers satisfy `P` -/
def Triple.All (P : α → Prop) (t : Triple α) : Prop := P t.1 ∧ P t.2.1 ∧ P t.2.2

theorem EllCalc.new_all (hP : Closed P) (n : Nat) : (EllCalc.new n : EllCalc α).All P :=
  have h := hP.nat n
  ⟨h, h, hP.add h hP.one, hP.div h (hP.nat 2), hP.div hP.one h,
    hP.div (hP.mul h h) (hP.sub (hP.mul h h) hP.one), hP.mul (hP.nat 2) (hP.div hP.one (hP.add h hP.one))⟩

section strat
variable {c : EllCalc α} {tsq β β1 : α}

theorem Closed.biasFast (hP : Closed P) (hc : c.All P) {τ η : α} (hβ : P β) (hτ : P τ) (hη : P η) :
    Triple.All P (c.helper.calcBiasCutFast β τ η) := by
  obtain ⟨-, h1, h2, h3, h4, h5, h6⟩ := hc
  have hr := hP.div hη h2
  exact ⟨hr, hP.div (hP.mul (hP.nat 2) hr) (hP.add hτ hβ),
    hP.mul h5 (hP.sub hP.one (hP.mul (hP.div hβ hτ) (hP.div hβ hτ)))⟩

theorem Closed.parFast (hP : Closed P) (hc : c.All P) {p η : α} (hβ : P β) (hβ1 : P β1) (ht : P tsq) (hp : P p) (hη : P η) :
    Triple.All P (c.helper.calcParallelBiasCutFast β β1 tsq p η) := by
  obtain ⟨-, h1, h2, h3, h4, h5, h6⟩ := hc
  have b0 := hP.mul hβ hβ
  have b1 := hP.mul hβ1 hβ1
  have z0 := hP.sub ht b0
  have z1 := hP.sub ht b1
  have t := hP.mul h3 (hP.sub b1 b0)
  have xi := hP.sqrt (hP.add (hP.mul z0 z1) (hP.mul t t))
  have bs := hP.add hβ hβ1
  have σ := hP.div (hP.mul (hP.nat 2) hη) (hP.add (hP.add (hP.add ht hp) (hP.mul h3 (hP.mul bs bs))) xi)
  exact ⟨hP.div (hP.mul σ bs) (hP.nat 2), σ,
    hP.div (hP.mul h5 (hP.add (hP.div (hP.add z0 z1) (hP.nat 2)) (hP.div xi h1))) ht⟩

theorem Closed.bias (hP : Closed P) (hc : c.All P) (hβ : P β) (ht : P tsq) : Triple.All P (c.calcBiasCut β tsq).2 := by
  unfold EllCalc.calcBiasCut
  split
  · exact ⟨hP.zero, hP.zero, hP.zero⟩
  · have hτ := hP.sqrt ht
    exact hP.biasFast hc hβ hτ (hP.add hτ (hP.mul hc.2.1 hβ))

theorem Closed.biasQ (hP : Closed P) (hc : c.All P) (hβ : P β) (ht : P tsq) : Triple.All P (c.calcBiasCutQ β tsq).2 := by
  unfold EllCalc.calcBiasCutQ
  have hτ := hP.sqrt ht
  simp only
  split
  · exact ⟨hP.zero, hP.zero, hP.zero⟩
  · split
    · exact ⟨hP.zero, hP.zero, hP.one⟩
    · exact hP.biasFast hc hβ hτ (hP.add hτ (hP.mul hc.1 hβ))

theorem Closed.central (hP : Closed P) (hc : c.All P) (ht : P tsq) : Triple.All P (c.calcCentralCut tsq).2 := by
  obtain ⟨-, h1, h2, h3, h4, h5, h6⟩ := hc
  exact ⟨hP.div (hP.sqrt ht) h2, h6, h5⟩

theorem Closed.par (hP : Closed P) (hc : c.All P) (hβ : P β) (hβ1 : P β1) (ht : P tsq) :
    Triple.All P (c.calcParallelBiasCut β β1 tsq).2 := by
  unfold EllCalc.calcParallelBiasCut
  split
  · exact ⟨hP.zero, hP.zero, hP.zero⟩
  · split
    · exact hP.bias hc hβ ht
    · have hp := hP.mul hβ hβ1
      exact hP.parFast hc hβ hβ1 ht hp (hP.add ht (hP.mul hc.2.1 hp))

theorem Closed.parQ (hP : Closed P) (hc : c.All P) (hβ : P β) (hβ1 : P β1) (ht : P tsq) :
    Triple.All P (c.calcParallelQ β β1 tsq).2 := by
  unfold EllCalc.calcParallelQ
  have hp := hP.mul hβ hβ1
  split
  · exact ⟨hP.zero, hP.zero, hP.zero⟩
  · split
    · exact hP.biasQ hc hβ ht
    · simp only
      split
      · exact ⟨hP.zero, hP.zero, hP.one⟩
      · exact hP.parFast hc hβ hβ1 ht hp (hP.add ht (hP.mul hc.1 hp))

theorem Closed.parCentral (hP : Closed P) (hc : c.All P) (hβ1 : P β1) (ht : P tsq) :
    Triple.All P (c.calcParallelCentralCut β1 tsq).2 := by
  unfold EllCalc.calcParallelCentralCut
  split
  · exact ⟨hP.zero, hP.zero, hP.zero⟩
  · split
    · exact hP.central hc ht
    · obtain ⟨-, h1, h2, h3, h4, h5, h6⟩ := hc
      have a := hP.div (hP.mul hβ1 hβ1) ht
      have hv := hP.mul h3 a
      have r := hP.add hv (hP.sqrt (hP.add (hP.sub hP.one a) (hP.mul hv hv)))
      have r1 := hP.add r hP.one
      exact ⟨hP.div hβ1 r1, hP.div (hP.nat 2) r1, hP.div r (hP.sub r h4)⟩

end strat

/-- every number of a cut satisfies `P` -/
class CutAll (T : Type) (α : outParam Type) [Scalar α] [CutType T α] where
  All : (α → Prop) → T → Prop
  call : ∀ {P : α → Prop} (_ : Closed P) (k : UpdateKind) (c : T) (_ : All P c) {h : EllCalc α} (_ : h.All P) {tsq : α},
    P tsq → Triple.All P (CutType.call k c h tsq).2

instance : CutAll (SingleCut α) α where
  All P c := P c.beta
  call hP k c hc h hh tsq ht := by
    cases k
    · exact hP.bias hh hc ht
    · exact hP.central hh ht
    · exact hP.biasQ hh hc ht

instance : CutAll (ParallelCut α) α where
  All P c := P c.beta0 ∧ ∀ b, c.beta1 = some b → P b
  call hP k c hc h hh tsq ht := by
    obtain ⟨b0, b1⟩ := c
    obtain ⟨h0, h1⟩ := hc
    cases b1 with
    | none =>
      cases k
      · exact hP.bias hh h0 ht
      · exact hP.central hh ht
      · exact hP.biasQ hh h0 ht
    | some b1 =>
      have h1 := h1 b1 rfl
      cases k
      · exact hP.par hh h0 h1 ht
      · exact hP.parCentral hh h1 ht
      · exact hP.parQ hh h0 h1 ht

section ell
variable {T : Type} [CutType T α] [CutAll T α]

theorem Ell.update_all (hP : Closed P) {e : Ell α} (he : e.All P) (k : UpdateKind) {g : Arr α} {c : T} (hg : g.All P)
    (hc : CutAll.All P c) : (Ell.space.update k e (g, c)).All fun r => r.2.All P := by
  rw [Ell.update_eq]
  obtain ⟨h1, h2, h3, h4⟩ := he
  unfold Ell.updateCore
  refine (h1.dotMv hP hg).bind fun gt hgt => (hg.dot hP hgt).bind fun om hom => ?_
  have ht := hP.mul h3 hom
  have hcall := CutAll.call hP k c hc h4 ht
  simp only
  rcases hr : CutType.call k c e.helper (e.kappa * om) with ⟨st, ρ, σ, δ⟩
  rw [hr] at hcall
  obtain ⟨hρ, hσ, hδ⟩ := hcall
  simp only at hρ hσ hδ
  simp only
  split
  · exact ⟨h1, h2, h3, h4⟩
  · refine Res.All.bind (P := Arr.All P) ?_ fun xc hxc => Res.All.bind (P := Arr.All P) ?_ fun mq hmq => ?_
    · unfold Ell.updateXc
      refine forRange_all h2 fun i xc hxc => ?_
      exact (hxc.idx _).bind fun u hu => (hgt.idx _).bind fun v hv =>
        hxc.setIdx _ (hP.sub hu (hP.mul (hP.div hρ hom) hv))
    · unfold Ell.updateMq
      refine forRange_all h1 fun i mq hmq => (hgt.idx _).bind fun gi hgi => ?_
      refine forRange_all hmq fun j mq hmq => (hgt.idx _).bind fun gj hgj => (hmq.idx _).bind fun old hold => ?_
      refine (hmq.setIdx _ (hP.sub hold (hP.mul (hP.mul (hP.div hσ hom) hgi) hgj))).bind fun mq hmq => ?_
      split
      · exact (hmq.idx _).bind fun v hv => hmq.setIdx _ hv
      · exact hmq
    · split
      · exact ⟨hmq.smul hP (hP.mul h3 hδ), hxc, hP.one, h4⟩
      · exact ⟨hmq, hxc, hP.mul h3 hδ, h4⟩

theorem EllStable.update_all (hP : Closed P) {e : EllStable α} (he : e.All P) (k : UpdateKind) {g : Arr α} {c : T}
    (hg : g.All P) (hc : CutAll.All P c) : (EllStable.space.update k e (g, c)).All fun r => r.2.All P := by
  have e0 : EllStable.space.update k e (g, c) = e.updateCore g (CutType.call k c e.helper) := by cases k <;> rfl
  rw [e0]
  obtain ⟨h1, h2, h3, h4⟩ := he
  unfold EllStable.updateCore
  refine Res.All.bind (P := fun r : Arr α × Arr α => r.1.All P ∧ r.2.All P) ?_ fun r hr => ?_
  · unfold EllStable.forward
    refine forRange_all ⟨h1, hg⟩ fun i st hst => forRange_all hst fun j st hst => ?_
    obtain ⟨mq, v⟩ := st
    refine (hst.1.get _ _).bind fun m hm => (hst.2.idx _).bind fun vj hvj => ?_
    refine (hst.1.setIdx _ (hP.mul hm hvj)).bind fun mq hmq => (hst.2.idx _).bind fun vi hvi => ?_
    exact (hst.2.setIdx _ (hP.sub hvi (hP.mul hm hvj))).bind fun v hv => ⟨hmq, hv⟩
  obtain ⟨mq, w⟩ := r
  obtain ⟨hmq, hw⟩ := hr
  refine Res.All.bind (P := Arr.All P) ?_ fun z hz => ?_
  · unfold EllStable.scaleDiag
    exact forRange_all hw fun i v hv => (hv.idx _).bind fun x hx => (hmq.get _ _).bind fun d hd =>
      hv.setIdx _ (hP.mul hx hd)
  refine Res.All.bind (P := fun r : Arr α × α => r.1.All P ∧ P r.2) ?_ fun r hr => ?_
  · unfold EllStable.calcOmega
    refine forRange_all ⟨hz, hP.zero⟩ fun i st hst => ?_
    obtain ⟨gg, om⟩ := st
    exact (hst.1.idx _).bind fun x hx => (hw.idx _).bind fun y hy =>
      (hst.1.setIdx _ (hP.mul hx hy)).bind fun gg hgg => (hgg.idx _).bind fun p hp => ⟨hgg, hP.add hst.2 hp⟩
  obtain ⟨gg, om⟩ := r
  obtain ⟨hgg, hom⟩ := hr
  have ht := hP.mul h3 hom
  have hcall := CutAll.call hP k c hc h4 ht
  simp only
  rcases hr : CutType.call k c e.helper (e.kappa * om) with ⟨st, ρ, σ, δ⟩
  rw [hr] at hcall
  obtain ⟨hρ, hσ, hδ⟩ := hcall
  simp only at hρ hσ hδ
  simp only
  split
  · exact ⟨hmq, h2, h3, h4⟩
  refine Res.All.bind (P := Arr.All P) ?_ fun gT hgT => Res.All.bind (P := Arr.All P) ?_ fun xc hxc =>
    Res.All.bind (P := Arr.All P) ?_ fun mq hmq => ⟨hmq, hxc, hP.mul h3 hδ, h4⟩
  · unfold EllStable.backward
    refine forDown_all hz fun i gT hgT => forRange_all hgT fun j gT hgT => ?_
    exact (hgT.idx _).bind fun x hx => (hmq.get _ _).bind fun m hm => (hgT.idx _).bind fun y hy =>
      hgT.setIdx _ (hP.sub hx (hP.mul hm hy))
  · unfold EllStable.updateXc
    exact forRange_all h2 fun i xc hxc => (hxc.idx _).bind fun u hu => (hgT.idx _).bind fun v hv =>
      hxc.setIdx _ (hP.sub hu (hP.mul (hP.div hρ hom) hv))
  · unfold EllStable.rankOne
    have h0 := hP.div hom (hP.div hσ (hP.sub hP.one hσ))
    refine Res.All.assert ?_
    refine Res.All.bind (P := fun r : Arr α × α => r.1.All P ∧ P r.2) ?_ fun r hr => ?_
    · refine forRange_all ⟨hmq, h0⟩ fun j st hst => ?_
      obtain ⟨mq, oldt⟩ := st
      obtain ⟨hmq, ho⟩ := hst
      refine (hgg.idx _).bind fun p hp => (hz.idx _).bind fun zj hzj => (hmq.idx _).bind fun d hd => ?_
      have htmp := hP.add ho hp
      refine (hmq.setIdx _ (hP.mul hd (hP.div ho htmp))).bind fun mq hmq => ?_
      refine Res.All.bind (P := Arr.All P) ?_ fun mq hmq => ⟨hmq, htmp⟩
      exact forRange_all hmq fun l mq hmq => (hmq.idx _).bind fun old hold => (hmq.get _ _).bind fun m hm =>
        hmq.setIdx _ (hP.add hold (hP.mul (hP.div hzj htmp) hm))
    · obtain ⟨mq, oldt⟩ := r
      obtain ⟨hmq, ho⟩ := hr
      exact (hgg.idx _).bind fun p hp => (hmq.idx _).bind fun d hd =>
        hmq.setIdx _ (hP.mul hd (hP.div ho (hP.add ho hp)))

end ell

end Ellalgo

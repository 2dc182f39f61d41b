import Verif.Model.Ell
import Verif.Lib.Rep
import Verif.Spec.EllOps

/-! Entry-wise description of `Ell::update_core`, for any scalar type. -/

namespace Ellalgo
variable {α : Type} [Scalar α]

theorem xcLoop_spec {n : Nat} {xc gT : Arr α} {x g : Nat → α} (hx : IsVec xc n x) (hg : IsVec gT n g)
    (r : α) :
    ∃ y, (forRange 0 n xc fun i xc => do
        let x ← xc.idx i
        let g ← gT.idx i
        xc.setIdx i (x - r * g)) = .ok y ∧ IsVec y n (fun i => x i - r * g i) := by
  obtain ⟨y, hy, hp⟩ := forRange_spec
    (f := fun i (xc : Arr α) => do
        let x ← xc.idx i
        let g ← gT.idx i
        xc.setIdx i (x - r * g))
    (fun i (a : Arr α) => IsVec a n (fun k => if k < i then x k - r * g k else x k))
    (s := xc) (Nat.zero_le n) (hx.congr (by intros; simp))
    (by
      intro i s _ hi hs
      obtain ⟨s', h1, h2⟩ := hs.setIdx hi (x i - r * g i)
      refine ⟨s', ?_, ?_⟩
      · rw [hs.idx hi, hg.idx hi]
        simpa using h1
      · refine h2.congr ?_
        intro k hk
        simp only [upd1]
        split_ifs <;> first | rfl | (subst_vars; rfl) | omega)
  exact ⟨y, hy, hp.congr (by intro k hk; simp [hk])⟩

/-- entries of `mq` after the rank-one loop: lower triangle computed, upper triangle mirrored -/
def newMq (m : Nat → Nat → α) (g : Nat → α) (r : α) (i j : Nat) : α :=
  if j ≤ i then m i j - r * g i * g j else m j i - r * g j * g i

theorem newMq_symm (m : Nat → Nat → α) (g : Nat → α) (r : α) (i j : Nat) :
    newMq m g r i j = newMq m g r j i := by
  unfold newMq
  rcases Nat.lt_trichotomy i j with h | h | h
  · rw [if_neg (by omega), if_pos (by omega)]
  · subst h; rfl
  · rw [if_pos (by omega), if_neg (by omega)]

namespace Ell

theorem updateXc_spec {n : Nat} {xc gT : Arr α} {x g : Nat → α} (hx : IsVec xc n x) (hg : IsVec gT n g)
    (r : α) : ∃ y, updateXc xc gT r = .ok y ∧ IsVec y n (fun i => x i - r * g i) := by
  unfold updateXc
  rw [hx.len']
  exact xcLoop_spec hx hg r

theorem updateMq_spec {n : Nat} {mq gT : Arr α} {m : Nat → Nat → α} {g : Nat → α} (hm : IsMat mq n n m)
    (hg : IsVec gT n g) (r : α) :
    ∃ y, updateMq n mq gT r = .ok y ∧ IsMat y n n (newMq m g r) := by
  unfold updateMq
  refine forRange_post
    (fun i (a : Arr α) => IsMat a n n (fun p q => if p < i ∧ q < i then newMq m g r p q else m p q))
    (s := mq) (Nat.zero_le n) (hm.congr (by intros; simp)) ?_ ?_
  · intro i s _ hi hs
    rw [hg.idx hi]
    simp only [Res.ok_bind]
    refine forRange_post
      (fun j (a : Arr α) => IsMat a n n (fun p q =>
        if (p < i ∧ q < i) ∨ (p = i ∧ q < j) ∨ (q = i ∧ p < j) then newMq m g r p q else m p q))
      (s := s) (Nat.zero_le (i + 1)) (hs.congr (by intros; simp)) ?_ ?_
    · intro j t _ hj ht
      rw [hg.idx (by omega : j < n)]
      simp only [Res.ok_bind]
      rw [ht.idx hi (by omega : j < n), if_neg (by omega)]
      simp only [Res.ok_bind]
      obtain ⟨t1, h1, ht1⟩ := ht.setIdx hi (by omega : j < n) (m i j - r * g i * g j)
      rw [h1]
      simp only [Res.ok_bind]
      have hnew : newMq m g r i j = m i j - r * g i * g j := by rw [newMq, if_pos (by omega)]
      by_cases hij : i = j
      · subst hij
        simp only [bne_self_eq_false, Bool.false_eq_true, if_false]
        refine ⟨t1, rfl, ht1.congr ?_⟩
        intro p q _ _
        simp only [upd2]
        by_cases h : p = i ∧ q = i
        · rw [if_pos h, if_pos (by omega), h.1, h.2, hnew]
        · rw [if_neg h]
          by_cases h' : (p < i ∧ q < i) ∨ (p = i ∧ q < i) ∨ (q = i ∧ p < i)
          · rw [if_pos h', if_pos (by omega)]
          · rw [if_neg h', if_neg (by omega)]
      · have hb : (i != j) = true := by simpa using hij
        rw [if_pos hb, ht1.idx hi (by omega : j < n)]
        simp only [Res.ok_bind, upd2, and_self, if_true]
        obtain ⟨t2, h2, ht2⟩ := ht1.setIdx (by omega : j < n) hi (m i j - r * g i * g j)
        refine ⟨t2, h2, ht2.congr ?_⟩
        intro p q _ _
        simp only [upd2]
        by_cases h : p = j ∧ q = i
        · rw [if_pos h, if_pos (by omega), h.1, h.2, newMq_symm, hnew]
        · rw [if_neg h]
          by_cases h3 : p = i ∧ q = j
          · rw [if_pos h3, if_pos (by omega), h3.1, h3.2, hnew]
          · rw [if_neg h3]
            by_cases h' : (p < i ∧ q < i) ∨ (p = i ∧ q < j) ∨ (q = i ∧ p < j)
            · rw [if_pos h', if_pos (by omega)]
            · rw [if_neg h', if_neg (by omega)]
    · intro s' h2
      refine h2.congr ?_
      intro p q _ _
      by_cases h : p < i + 1 ∧ q < i + 1
      · rw [if_pos h, if_pos (by omega)]
      · rw [if_neg h, if_neg (by omega)]
  · intro y h2
    exact h2.congr (by intro p q hp hq; rw [if_pos ⟨hp, hq⟩])

/-- `mq · grad` entry `i` as computed -/
def gt (n : Nat) (m : Nat → Nat → α) (g : Nat → α) (i : Nat) : α := sumTo n fun j => m i j * g j
/-- `omega` as computed -/
def om (n : Nat) (m : Nat → Nat → α) (g : Nat → α) : α := sumTo n fun i => g i * gt n m g i

/-- the multiplication by `kappa` of the `no_defer_trick` branch -/
def deferM (b : Bool) (k : α) (m : Nat → Nat → α) (i j : Nat) : α := if b then m i j * k else m i j

theorem updateCore_spec {e : Ell α} {n : Nat} {m : Nat → Nat → α} {x g : Nat → α} {grad : Arr α}
    (hm : IsMat e.mq n n m) (hx : IsVec e.xc n x) (hg : IsVec grad n g) (hn : 0 < n)
    (strategy : α → CutStatus × Triple α) {st : CutStatus} {ρ σ δ : α}
    (hs : strategy (e.kappa * om n m g) = (st, ρ, σ, δ)) :
    (st ≠ .success ∧ e.updateCore grad strategy = .ok (st, { e with tsq := e.kappa * om n m g })) ∨
    (st = .success ∧ ∃ e', e.updateCore grad strategy = .ok (.success, e') ∧
      IsMat e'.mq n n (deferM e.noDeferTrick (e.kappa * δ) (newMq m (gt n m g) (σ / om n m g))) ∧
      IsVec e'.xc n (fun i => x i - ρ / om n m g * gt n m g i) ∧
      e'.kappa = (if e.noDeferTrick then 1 else e.kappa * δ) ∧ e'.helper = e.helper ∧
      e'.noDeferTrick = e.noDeferTrick ∧ e'.tsq = e.kappa * om n m g) := by
  obtain ⟨gT, h1, hgT⟩ := dotMv_spec hm hg hn
  have hgT' : IsVec gT n (gt n m g) := hgT
  have hdot : grad.dot gT = .ok (om n m g) := dot_spec hg hgT'
  by_cases hst : st = .success
  · right
    refine ⟨hst, ?_⟩
    subst hst
    obtain ⟨x', hx1, hx2⟩ := updateXc_spec hx hgT' (ρ / om n m g)
    obtain ⟨m', hm1, hm2⟩ := updateMq_spec hm hgT' (σ / om n m g)
    unfold updateCore
    simp only [h1, Res.ok_bind, hdot, hs, hx1, hm1, hx.len']
    cases hd : e.noDeferTrick
    · refine ⟨_, rfl, ?_, hx2, rfl, rfl, hd.symm ▸ rfl, rfl⟩
      exact hm2.congr (fun i j _ _ => rfl)
    · refine ⟨_, rfl, ?_, hx2, rfl, rfl, hd.symm ▸ rfl, rfl⟩
      exact (hm2.map (fun z => z * (e.kappa * δ))).congr (fun i j _ _ => rfl)
  · left
    refine ⟨hst, ?_⟩
    unfold updateCore
    simp only [h1, Res.ok_bind, hdot, hs]
    have : (st != CutStatus.success) = true := by simpa using hst
    simp [this]

end Ell

variable {T : Type} [CutType T α]

theorem Ell.update_eq (k : UpdateKind) (e : Ell α) (cut : Arr α × T) :
    Ell.space.update k e cut = e.updateCore cut.1 (CutType.call k cut.2 e.helper) := by
  cases k <;> rfl

theorem EllStable.update_eq (k : UpdateKind) (e : EllStable α) (cut : Arr α × T) :
    EllStable.space.update k e cut = e.updateCore cut.1 (CutType.call k cut.2 e.helper) := by
  cases k <;> rfl

end Ellalgo

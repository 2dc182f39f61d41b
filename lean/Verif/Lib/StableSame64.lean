import Verif.Lib.StableGeneric
import Verif.Lib.Lmi64

/-! One update of `EllStable` in `f64` and in arithmetic rounded to 53 bits. -/

namespace Ellalgo
namespace EllStable
variable {n : Nat}

theorem fwd_same {m : Nat → Nat → B64} {m' : Nat → Nat → Fl bin53} {g w : Nat → B64} {g' w' : Nat → Fl bin53}
    (hm : ∀ i < n, ∀ j < n, Same (m i j) (m' i j)) (hg : ∀ i < n, Same (g i) (g' i)) (hw : IsFwd n m g w) (hw' : IsFwd n m' g' w')
    (ok : ∀ i < n, ∀ j < i, MulOk (m' j i) (w' j) ∧ SubOk (subTo (g' i) (fun j => m' j i * w' j) j) (m' j i * w' j)) :
    ∀ i < n, Same (w i) (w' i) := by
  intro i
  induction i using Nat.strong_induction_on with
  | _ i ih =>
    intro hi
    rw [hw i hi, hw' i hi]
    exact Same.subTo (hg i hi) (fun j hj => (hm j (by omega) i hi).mul (ih j hj (by omega)) (ok i hi j hj).1) fun j hj => (ok i hi j hj).2

theorem bwd_same {m : Nat → Nat → B64} {m' : Nat → Nat → Fl bin53} {w z h : Nat → B64} {w' z' h' : Nat → Fl bin53}
    (hs : ∀ j l, j < l → l < n → Same (m j l * w j) (m' j l * w' j)) (hz : ∀ i < n, Same (z i) (z' i)) (hh : IsBwd n m w z h)
    (hh' : IsBwd n m' w' z' h')
    (ok : ∀ i < n, ∀ k < n - 1 - i, MulOk (m' i (i + 1 + k) * w' i) (h' (i + 1 + k)) ∧
      SubOk (subTo (z' i) (fun k => m' i (i + 1 + k) * w' i * h' (i + 1 + k)) k) (m' i (i + 1 + k) * w' i * h' (i + 1 + k))) :
    ∀ i < n, Same (h i) (h' i) := by
  suffices H : ∀ d i, n - 1 - i = d → i < n → Same (h i) (h' i) from fun i hi => H _ i rfl hi
  intro d
  induction d using Nat.strong_induction_on with
  | _ d ih =>
    intro i hd hi
    rw [hh i hi, hh' i hi]
    exact Same.subTo (hz i hi) (fun k hk => (hs i (i + 1 + k) (by omega) (by omega)).mul
      (ih (n - 1 - (i + 1 + k)) (by omega) _ rfl (by omega)) (ok i hi k hk).1) fun k hk => (ok i hi k hk).2

theorem factor_same {m : Nat → Nat → B64} {m' : Nat → Nat → Fl bin53} {w z p : Nat → B64} {w' z' p' : Nat → Fl bin53} {om σ : B64}
    {om' σ' : Fl bin53} (hm : ∀ i < n, ∀ j < n, Same (m i j) (m' i j)) (hs : ∀ j l, j < l → l < n → Same (m j l * w j) (m' j l * w' j))
    (hz : ∀ i < n, Same (z i) (z' i)) (hp : ∀ i < n, Same (p i) (p' i)) (ho : Same om om') (hσ : Same σ σ')
    (ok : FactorSafe n m' w' z' p' om' σ' (addFrom (om' / (σ' / (1 - σ'))) p')) :
    ∀ i < n, ∀ j < n, Same (newF m w z (addFrom (om / (σ / (1 - σ))) p) i j) (newF m' w' z' (addFrom (om' / (σ' / (1 - σ'))) p') i j) := by
  obtain ⟨⟨k1, k2, k3⟩, k4, k5⟩ := ok
  have ht : ∀ j ≤ n, Same (addFrom (om / (σ / (1 - σ))) p j) (addFrom (om' / (σ' / (1 - σ'))) p' j) := by
    intro j
    induction j with
    | zero => exact fun _ => ho.div (hσ.div (Same.one.sub hσ k1) k2) k3
    | succ j ih => exact fun hj => (ih (by omega)).add (hp j (by omega)) (k4 j (by omega)).1
  intro i hi j hj
  unfold newF
  split_ifs with h1 h2
  · exact hs j i h1 hi
  · exact (hm i hi i hi).mul ((ht i (by omega)).div (ht (i + 1) (by omega)) (k4 i hi).2.1) (k4 i hi).2.2
  · obtain ⟨l1, l2, l3⟩ := k5 i j (by omega) hj
    exact (hm i hi j hj).add (((hz i hi).div (ht (i + 1) (by omega)) l1).mul (hs i j (by omega) hj) l2) l3

variable {T T' : Type} [Cut64 T T'] [CutType T B64] [CutType T' (Fl bin53)] [LawfulCut64 T T']

theorem same_update {e : EllStable B64} {e' : EllStable (Fl bin53)} {c : Arr B64 × T} {c' : Arr (Fl bin53) × T'} (hn : 0 < n)
    (he : e.Same64 e') (hs : e'.Shaped n) (hc : SameCut c c') (hg : c'.1.IsVecShape n) (k : UpdateKind) (ok : Safe n k e' c') :
    Res.Rel (fun p q => p.1 = q.1 ∧ p.2.Same64 q.2) (EllStable.space.update k e c) (EllStable.space.update k e' c') ∧
    ∀ q, EllStable.space.update k e' c' = .ok q → q.2.Shaped n := by
  rw [EllStable.update_eq, EllStable.update_eq]
  have hM := he.mq.matShape hs.1
  have hX := he.xc.vecShape hs.2
  have hG := hc.1.vecShape hg
  have sm := he.mq.mat hs.1
  have sx := he.xc.vec hs.2
  have sg := hc.1.vec hg
  obtain ⟨w, h, f1, f2, f3⟩ := updateCore_generic hn hM.isMat hX.isVec hG.isVec (CutType.call k c.2 e.helper)
  obtain ⟨w', h', f1', f2', f3'⟩ := updateCore_generic hn hs.1.isMat hs.2.isVec hg.isVec (CutType.call k c'.2 e'.helper)
  obtain ⟨k1, k2, k3, k4, k5, k6, k7⟩ := ok w' h' f1' f2'
  have sw := fwd_same (fun i hi j hj => sm i j hi hj) sg f1 f1' k1
  have sz : ∀ i < n, Same (w i * e.mq.mat i i) (w' i * e'.mq.mat i i) := fun i hi => (sw i hi).mul (sm i i hi hi) (k2 i hi)
  have sp : ∀ i < n, Same (w i * e.mq.mat i i * w i) (w' i * e'.mq.mat i i * w' i) := fun i hi => (sz i hi).mul (sw i hi) (k3 i hi)
  have so := Same.sumTo sp k4
  have sl : ∀ j l, j < l → l < n → Same (e.mq.mat j l * w j) (e'.mq.mat j l * w' j) := fun j l hj hl =>
    (sm j l (by omega) hl).mul (sw j (by omega)) (k1 l hl j hj).1
  have st := he.kappa.mul so k5
  have hcall := LawfulCut64.call k c.2 c'.2 e.helper e'.helper _ _ hc.2 he.helper st k6
  obtain ⟨⟨s, ρ, σ, δ⟩, hq⟩ : ∃ q, CutType.call k c.2 e.helper (e.kappa * sumTo n fun i => w i * e.mq.mat i i * w i) = q := ⟨_, rfl⟩
  obtain ⟨⟨s', ρ', σ', δ'⟩, hq'⟩ : ∃ q, CutType.call k c'.2 e'.helper (e'.kappa * sumTo n fun i => w' i * e'.mq.mat i i * w' i) = q :=
    ⟨_, rfl⟩
  rw [hq, hq'] at hcall
  obtain ⟨hst, hρ, hσ, hδ⟩ := hcall
  simp only at hst hρ hσ hδ
  subst hst
  obtain ⟨r, a1, a2, a3, a4, a5⟩ := f3 _ _ _ _ hq
  obtain ⟨r', b1, b2, b3, b4, b5⟩ := f3' _ _ _ _ hq'
  rw [a1, b1]
  by_cases hsc : s = .success
  · obtain ⟨a6, a7, a8⟩ := a5 hsc
    obtain ⟨b6, b7, b8⟩ := b5 hsc
    rw [hsc] at hq'
    obtain ⟨d1, d2, d3, d4, d5⟩ := k7 ρ' σ' δ' hq'
    have sh := bwd_same sl sz f2 f2' d1
    refine ⟨⟨rfl, IsMat.same a6 b6 (factor_same (fun i hi j hj => sm i j hi hj) sl sz sp so hσ d5), IsVec.same a7 b7 fun i hi =>
      (sx i hi).sub ((hρ.div so d2).mul (sh i hi) (d3 i hi).1) (d3 i hi).2, ?_, ?_, ?_⟩, ?_⟩
    · show Same r.kappa r'.kappa
      rw [a8, b8]; exact he.kappa.mul hδ d4
    · show r.helper.Same r'.helper
      rw [a2, b2]; exact he.helper
    · show Same r.tsq r'.tsq
      rw [a3, b3]; exact st
    · intro q hq
      cases hq
      exact ⟨b6.shape, b7.shape⟩
  · obtain ⟨a6, a7, a8⟩ := a4 hsc
    obtain ⟨b6, b7, b8⟩ := b4 hsc
    refine ⟨⟨rfl, IsMat.same a6 b6 fun i hi j hj => ?_, ?_, ?_, ?_, ?_⟩, ?_⟩
    · unfold lowM
      split_ifs with h1
      · exact sl j i h1 hi
      · exact sm i j hi hj
    · show r.xc.Same r'.xc
      rw [a7, b7]; exact he.xc
    · show Same r.kappa r'.kappa
      rw [a8, b8]; exact he.kappa
    · show r.helper.Same r'.helper
      rw [a2, b2]; exact he.helper
    · show Same r.tsq r'.tsq
      rw [a3, b3]; exact st
    · intro q hq
      cases hq
      refine ⟨b6.shape, ?_⟩
      show r'.xc.IsVecShape n
      rw [b7]; exact hs.2

end EllStable
end Ellalgo

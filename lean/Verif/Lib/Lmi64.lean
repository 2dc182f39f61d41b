import Verif.Spec.Binary64Lmi
import Verif.Lib.Iter64
import Verif.Lib.LdltFlOps
import Verif.Props.RoundedLmiCut

/-! The LMI oracles in `f64` within range compute what they compute in arithmetic rounded to 53 bits. -/

namespace Ellalgo

theorem Same.neg {a : B64} {x : Fl bin53} (h : Same a x) : Same (-a) (-x) := by
  obtain ⟨h1, h2⟩ := h
  cases a with
  | nan => exact h1.elim
  | inf _ => exact h1.elim
  | zero b => exact ⟨trivial, by show (0 : ℝ) = -x.val; rw [← h2]; exact neg_zero.symm⟩
  | num a => exact ⟨trivial, by show -a.x = -x.val; rw [← h2]; rfl⟩

section
variable {α : Type} [Scalar α]

theorem forRange_addFrom {n : Nat} {f : Nat → α → Res α} {t : Nat → α} (c : α)
    (h : ∀ i acc, i < n → f i acc = .ok (acc + t i)) : forRange 0 n c f = .ok (addFrom c t n) := by
  obtain ⟨s, hs, hp⟩ := forRange_spec (f := f) (fun i (acc : α) => acc = addFrom c t i)
    (s := c) (Nat.zero_le n) rfl
    (by
      intro i acc _ hi hacc
      exact ⟨acc + t i, h i acc hi, by rw [hacc]; rfl⟩)
  rw [hs, hp]

theorem LDLTMgr.symQuad_generic {m : LDLTMgr α} {n q : Nat} {v : Nat → α} {F : Arr α} {f : Nat → Nat → α}
    (hv : IsVec m.wit n v) (hF : IsMat F n n f) (hpos : m.pos = (0, q)) (hq : q ≤ n) : m.symQuad F = .ok (quadTo q v f q) := by
  unfold symQuad
  rw [hpos]
  refine (forRange_spec (fun i (r : α) => r = quadTo q v f i) (Nat.zero_le q) rfl ?_).elim fun r hr => by
    obtain ⟨h1, h2⟩ := hr
    rw [← h2]; exact h1
  intro i r _ hi hr
  refine ⟨_, forRange_addFrom (t := fun j => v i * f i j * v j) r fun j acc hj => ?_, ?_⟩
  · rw [hv.idx (by omega), hF.getij (by omega) (by omega), hv.idx (by omega)]
    rfl
  · rw [hr]; rfl

/-- what a factorisation followed, on failure, by the witness leaves behind -/
inductive LdlEnd (m : LDLTMgr α) (getElem : Nat → Nat → Res α) (n : Nat) (A S : Nat → Nat → α) : Prop
  | pass (m' : LDLTMgr α) (h : m.factor getElem = .ok (true, m')) (hs : m'.Sized n) (hB : LDLTMgr.BlkG A S n)
      (hp : ∀ a, a < n → Scalar.le (S a a) 0 = false)
  | fail (p : Nat) (v : Nat → α) (m1 m2 : LDLTMgr α) (h : m.factor getElem = .ok (false, m1)) (hw : m1.witness = .ok (- S p p, m2))
      (hs : m2.Sized n) (hpn : p < n) (hB : LDLTMgr.BlkG A S (p + 1)) (hp : ∀ a, a < p → Scalar.le (S a a) 0 = false)
      (hpp : Scalar.le (S p p) 0 = true) (hv : IsWit p S v)
      (hq : ∀ (F : Arr α) (f : Nat → Nat → α), IsMat F n n f → m2.symQuad F = .ok (quadTo (p + 1) v f (p + 1)))

theorem ldlEnd {m : LDLTMgr α} {n : Nat} {getElem : Nat → Nat → Res α} {A : Nat → Nat → α} (hm : m.Sized n)
    (hA : ∀ i j, j ≤ i → i < n → getElem i j = .ok (A i j)) : ∃ S, LdlEnd m getElem n A S := by
  obtain ⟨b, m', S, h1, h2, h3, h4, hh⟩ := LDLTMgr.factor_generic hm.1 hm.2.1 hA
  refine ⟨S, ?_⟩
  have hwit : m'.wit.IsVecShape n := by rw [h4]; exact hm.2.2
  rcases hh with ⟨rfl, -, h5, h6⟩ | ⟨rfl, p, hp, hpos, h5, h6, h7⟩
  · exact .pass m' h1 ⟨h2, h3.shape, hwit⟩ h5 h6
  · obtain ⟨wit', v, hwt, hv, hvp, hvi⟩ := LDLTMgr.witness_generic h2 h3 hwit.isVec hpos hp
    exact .fail p v m' _ h1 hwt ⟨h2, h3.shape, hv.shape⟩ hp h5 h6 h7 ⟨hvp, hvi⟩ fun F f hF =>
      LDLTMgr.symQuad_generic (m := { m' with wit := wit' }) hv hF hpos (by omega)

theorem BlkG.mono {A S : Nat → Nat → α} {p q : Nat} (h : LDLTMgr.BlkG A S q) (hpq : p ≤ q) : LDLTMgr.BlkG A S p :=
  fun a ha => h a (by omega)

end

variable {n d : Nat} {A S : Nat → Nat → B64} {A' S' : Nat → Nat → Fl bin53} {E : Nat → Nat → Prop}
  {F : Nat → Nat → Nat → B64} {F' : Nat → Nat → Nat → Fl bin53}

/-- the rows of the two tables agree as long as no pivot was rejected -/
theorem blk_same (ok : LdlSafe n d A' E F') (hA : ∀ i j, j ≤ i → i < n → E i j → Same (A i j) (A' i j)) {q : Nat} (hq : q ≤ n)
    (h : LDLTMgr.BlkG A S q) (h' : LDLTMgr.BlkG A' S' q) (hp : ∀ a, a + 1 < q → Scalar.le (S' a a) 0 = false) :
    ∀ a < q, ∀ b ≤ a, Same (S b a) (S' b a) ∧ (b < a → Same (S a b) (S' a b)) := by
  intro a
  induction a using Nat.strong_induction_on with
  | _ a iha =>
    intro ha b
    obtain ⟨hE, hR⟩ := ok.row S' a (by omega) (BlkG.mono h' (by omega)) fun c hc => hp c (by omega)
    induction b using Nat.strong_induction_on with
    | _ b ihb =>
      intro hb
      obtain ⟨k1, k2, k3, k4⟩ := hR b hb
      have e1 : Same (S b a) (S' b a) := by
        rw [(h a ha).1 b hb, (h' a ha).1 b hb]
        unfold LDLTMgr.entryG
        split
        · exact hA a 0 (by omega) (by omega) (hE 0 (by omega))
        · refine (hA a b hb (by omega) (hE b hb)).sub (Same.sumTo (fun k hk => ?_) k2) (k3 (by omega))
          refine ((ihb k hk (by omega)).2 (by omega)).mul ?_ (k1 k hk)
          rcases Nat.lt_or_ge b a with hba | hba
          · exact (iha b hba (by omega) k (by omega)).1
          · obtain rfl : b = a := by omega
            exact (ihb k hk (by omega)).1
      refine ⟨e1, fun hba => ?_⟩
      rw [(h a ha).2 b hba, (h' a ha).2 b hba]
      exact e1.div (iha b hba (by omega) b le_rfl).1 (k4 hba)

theorem Same.addFrom {r : B64} {r' : Fl bin53} {t : Nat → B64} {t' : Nat → Fl bin53} {q : Nat} (hr : Same r r')
    (h : ∀ j < q, Same (t j) (t' j)) (ok : ∀ j < q, AddOk (addFrom r' t' j) (t' j)) : Same (addFrom r t q) (addFrom r' t' q) := by
  induction q with
  | zero => exact hr
  | succ q ih => exact (ih (fun j hj => h j (by omega)) fun j hj => ok j (by omega)).add (h q (by omega)) (ok q (by omega))

theorem Same.subTo {r : B64} {r' : Fl bin53} {t : Nat → B64} {t' : Nat → Fl bin53} {q : Nat} (hr : Same r r')
    (h : ∀ j < q, Same (t j) (t' j)) (ok : ∀ j < q, SubOk (subTo r' t' j) (t' j)) : Same (subTo r t q) (subTo r' t' q) := by
  induction q with
  | zero => exact hr
  | succ q ih => exact (ih (fun j hj => h j (by omega)) fun j hj => ok j (by omega)).sub (h q (by omega)) (ok q (by omega))

theorem quad_same {q : Nat} {v : Nat → B64} {v' : Nat → Fl bin53} {f : Nat → Nat → B64} {f' : Nat → Nat → Fl bin53}
    (hv : SameV q v v') (hf : SameM q f f') (ok : QuadSafe q v' f') {i : Nat} (hi : i ≤ q) :
    Same (quadTo q v f i) (quadTo q v' f' i) := by
  induction i with
  | zero => exact .zero
  | succ i ih =>
    refine (ih (by omega)).addFrom (fun j hj => ?_) fun j hj => (ok i (by omega) j hj).2.2
    obtain ⟨k1, k2, -⟩ := ok i (by omega) j hj
    exact ((hv i (by omega)).mul (hf i (by omega) j hj) k1).mul (hv j hj) k2

theorem wit_same {p : Nat} {v : Nat → B64} {v' : Nat → Fl bin53} (hS : ∀ a ≤ p, ∀ b < a, Same (S a b) (S' a b))
    (hv : IsWit p S v) (hv' : IsWit p S' v') (ok : WitSafe p S' v') : SameV (p + 1) v v' := by
  have key : ∀ c i, i + c = p → Same (v i) (v' i) := by
    intro c
    induction c using Nat.strong_induction_on with
    | _ c ih =>
      intro i hi
      rcases Nat.eq_zero_or_pos c with rfl | hc
      · obtain rfl : i = p := by omega
        rw [hv.1, hv'.1]; exact .one
      · obtain ⟨k1, k2⟩ := ok i (by omega)
        rw [hv.2 i (by omega), hv'.2 i (by omega)]
        refine (Same.sumTo (fun j hj => ?_) k2).neg
        exact (hS _ (by omega) _ (by omega)).mul (ih (p - (i + 1 + j)) (by omega) _ (by omega)) (k1 j hj)
  exact fun i hi => key (p - i) i (by omega)

/-- the two factorisations end the same way -/
theorem end_same {m : LDLTMgr B64} {m' : LDLTMgr (Fl bin53)} {g : Nat → Nat → Res B64} {g' : Nat → Nat → Res (Fl bin53)}
    (ok : LdlSafe n d A' E F') (hA : ∀ i j, j ≤ i → i < n → E i j → Same (A i j) (A' i j)) (h : LdlEnd m g n A S)
    (h' : LdlEnd m' g' n A' S') :
    (∃ k k', m.factor g = .ok (true, k) ∧ k.Sized n ∧ m'.factor g' = .ok (true, k') ∧ k'.Sized n) ∨
    ∃ k1 k1' k2 k2' ep ep', m.factor g = .ok (false, k1) ∧ m'.factor g' = .ok (false, k1') ∧ k1.witness = .ok (ep, k2) ∧
      k1'.witness = .ok (ep', k2') ∧ k2.Sized n ∧ k2'.Sized n ∧ Same ep ep' ∧
      ∀ k < d, ∀ (G : Arr B64) (G' : Arr (Fl bin53)), IsMat G n n (F k) → IsMat G' n n (F' k) → SameM n (F k) (F' k) →
        ∃ r r', k2.symQuad G = .ok r ∧ k2'.symQuad G' = .ok r' ∧ Same r r' := by
  rcases h with ⟨k, h1, hs, hB, hp⟩ | ⟨p, v, k1, k2, h1, hw, hs, hpn, hB, hp, hpp, hv, hq⟩
  · rcases h' with ⟨k', h1', hs', hB', hp'⟩ | ⟨p', v', k1', k2', h1', hw', hs', hpn', hB', hp', hpp', hv', hq'⟩
    · exact .inl ⟨k, k', h1, hs, h1', hs'⟩
    · exfalso
      have e := (blk_same ok hA (q := p' + 1) (by omega) (BlkG.mono hB (by omega)) hB' (fun a ha => hp' a (by omega)) p' (by omega) p' le_rfl).1
      rw [← e.le .zero, hp p' hpn'] at hpp'
      cases hpp'
  · rcases h' with ⟨k', h1', hs', hB', hp'⟩ | ⟨p', v', k1', k2', h1', hw', hs', hpn', hB', hp', hpp', hv', hq'⟩
    · exfalso
      have e := (blk_same ok hA (q := p + 1) (by omega) hB (BlkG.mono hB' (by omega)) (fun a ha => hp' a (by omega)) p (by omega) p le_rfl).1
      rw [e.le .zero, hp' p hpn] at hpp
      cases hpp
    · obtain rfl : p = p' := by
        rcases Nat.lt_trichotomy p p' with hlt | rfl | hlt
        · exfalso
          have e := (blk_same ok hA (q := p + 1) (by omega) hB (BlkG.mono hB' (by omega)) (fun a ha => hp' a (by omega)) p (by omega) p
            le_rfl).1
          rw [e.le .zero, hp' p hlt] at hpp
          cases hpp
        · rfl
        · exfalso
          have e := (blk_same ok hA (q := p' + 1) (by omega) (BlkG.mono hB (by omega)) hB' (fun a ha => hp' a (by omega)) p' (by omega) p'
            le_rfl).1
          rw [← e.le .zero, hp p' hlt] at hpp'
          cases hpp'
      have hbs := blk_same ok hA (q := p + 1) (by omega) hB hB' fun a ha => hp' a (by omega)
      obtain ⟨ok1, ok2⟩ := ok.cut S' p v' hpn hB' hp' hpp' hv'
      have hvs := wit_same (fun a ha b hb => (hbs a (by omega) b hb.le).2 hb) hv hv' ok1
      refine .inr ⟨k1, k1', k2, k2', _, _, h1, h1', hw, hw', hs, hs', (hbs p (by omega) p le_rfl).1.neg, ?_⟩
      intro k hk G G' hG hG' hGs
      exact ⟨_, _, hq G _ hG, hq' G' _ hG', quad_same hvs (fun i hi j hj => hGs i (by omega) j (by omega)) (ok2 k hk) le_rfl⟩

/-- entry by entry the same matrices -/
theorem SameMats.entry {fs : List (Arr B64)} {fs' : List (Arr (Fl bin53))} (h : SameMats d n fs fs') {k : Nat} (hk : k < d) :
    ∃ (h1 : k < fs.length) (h2 : k < fs'.length), (fs[k]).Same fs'[k] ∧ (fs[k]).IsMatShape n n ∧ (fs'[k]).IsMatShape n n ∧
      SameM n (fEntry fs k) (fEntry fs' k) := by
  have h2 : k < fs'.length := by rw [h.length]; exact hk
  have h1 : k < fs.length := by rw [h.same.length_eq]; exact h2
  have h3 : (fs[k]).Same fs'[k] := h.same.get h1 h2
  have h4 := h.shape _ (List.getElem_mem h2)
  refine ⟨h1, h2, h3, h3.matShape h4, h4, fun i hi j hj => ?_⟩
  rw [fEntry_eq h1, fEntry_eq h2]
  exact h3.mat h4 i j hi hj

theorem SameMats.shapes {fs : List (Arr B64)} {fs' : List (Arr (Fl bin53))} (h : SameMats d n fs fs') : ∀ f ∈ fs, f.IsMatShape n n := by
  intro f hf
  obtain ⟨k, hk, rfl⟩ := List.getElem_of_mem hf
  obtain ⟨_, _, _, h4, _⟩ := h.entry (k := k) (by rw [← h.length, ← h.same.length_eq]; exact hk)
  exact h4

/-- the gradient loop -/
theorem grad_same {q : Nat → B64} {q' : Nat → Fl bin53} {f : Nat → Arr B64 → Res (Arr B64)} {f' : Nat → Arr (Fl bin53) → Res (Arr (Fl bin53))}
    (hf : ∀ k g, k < d → f k g = g.setIdx k (q k)) (hf' : ∀ k g, k < d → f' k g = g.setIdx k (q' k)) (h : SameV d q q') :
    ∃ g g', forRange 0 d (Arr.new d) f = .ok g ∧ forRange 0 d (Arr.new d) f' = .ok g' ∧ g.Same g' := by
  obtain ⟨g, h1, h2, h3⟩ := grad_loop_generic hf
  obtain ⟨g', h1', h2', h3'⟩ := grad_loop_generic hf'
  refine ⟨g, g', h1, h1', h2.isVec.same h2'.isVec fun i hi => ?_⟩
  rw [h3 i hi, h3' i hi]
  exact h i hi

end Ellalgo

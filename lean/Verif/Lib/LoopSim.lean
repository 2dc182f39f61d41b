import Verif.Spec.Affine
import Verif.Model.CuttingPlane

/-! Relational version of the loops: related oracles and related spaces give related runs. -/

namespace Ellalgo

theorem Res.Rel.bind {β γ β' γ' : Type} {R : β → γ → Prop} {R' : β' → γ' → Prop} {x : Res β} {y : Res γ}
    {f : β → Res β'} {g : γ → Res γ'} (h : Res.Rel R x y) (hf : ∀ a b, R a b → Res.Rel R' (f a) (g b)) :
    Res.Rel R' (x >>= f) (y >>= g) := by
  cases x <;> cases y <;> simp_all [Res.Rel]

theorem Res.Rel.mono {β γ : Type} {R R' : β → γ → Prop} {x : Res β} {y : Res γ} (h : Res.Rel R x y)
    (hr : ∀ a b, R a b → R' a b) : Res.Rel R' x y := by
  cases x <;> cases y <;> simp_all [Res.Rel]

section
variable {Ω Ω' S S' X X' T T' α : Type} [Scalar α]
variable (RΩ : Ω → Ω' → Prop) (RS : S → S' → Prop) (RX : X → X' → Prop) (RC : X × T → X' × T' → Prop)

/-- two spaces in lockstep -/
structure SpaceSim (sp : Space S X T α) (sp' : Space S' X' T' α) : Prop where
  xc : ∀ s s', RS s s' → RX (sp.xc s) (sp'.xc s')
  tsq : ∀ s s', RS s s' → sp.tsq s = sp'.tsq s'
  bias : ∀ s s' c c', RS s s' → RC c c' →
    Res.Rel (fun p q => p.1 = q.1 ∧ RS p.2 q.2) (sp.updateBias s c) (sp'.updateBias s' c')
  central : ∀ s s' c c', RS s s' → RC c c' →
    Res.Rel (fun p q => p.1 = q.1 ∧ RS p.2 q.2) (sp.updateCentral s c) (sp'.updateCentral s' c')
  q : ∀ s s' c c', RS s s' → RC c c' →
    Res.Rel (fun p q => p.1 = q.1 ∧ RS p.2 q.2) (sp.updateQ s c) (sp'.updateQ s' c')
  setXc : ∀ s s' x x', RS s s' → RX x x' → RS (sp.setXc s x) (sp'.setXc s' x')

/-- two feasibility oracles in lockstep -/
structure FeasSim (orc : OracleFeas Ω X T α) (orc' : OracleFeas Ω' X' T' α) : Prop where
  assess : ∀ w w' x x', RΩ w w' → RX x x' →
    Res.Rel (fun p q => OptRel RC p.1 q.1 ∧ RΩ p.2 q.2) (orc.assess w x) (orc'.assess w' x')
  update : ∀ w w' g, RΩ w w' → Res.Rel RΩ (orc.update w g) (orc'.update w' g)

/-- two optimisation oracles in lockstep -/
def OptimSim (orc : OracleOptim Ω X T α) (orc' : OracleOptim Ω' X' T' α) : Prop :=
  ∀ w w' x x' g, RΩ w w' → RX x x' →
    Res.Rel (fun p q => RC p.1.1 q.1.1 ∧ p.1.2 = q.1.2 ∧ p.2.1 = q.2.1 ∧ RΩ p.2.2 q.2.2)
      (orc.assess w x g) (orc'.assess w' x' g)

/-- two discrete oracles in lockstep -/
def OptimQSim (orc : OracleOptimQ Ω X T α) (orc' : OracleOptimQ Ω' X' T' α) : Prop :=
  ∀ w w' x x' g r, RΩ w w' → RX x x' →
    Res.Rel (fun p q => RC p.1.1 q.1.1 ∧ p.1.2.1 = q.1.2.1 ∧ RX p.1.2.2.1 q.1.2.2.1 ∧ p.1.2.2.2 = q.1.2.2.2 ∧
      p.2.1 = q.2.1 ∧ RΩ p.2.2 q.2.2) (orc.assess w x g r) (orc'.assess w' x' g r)

variable {RΩ RS RX RC}
variable {sp : Space S X T α} {sp' : Space S' X' T' α}

theorem feasLoop_sim {orc : OracleFeas Ω X T α} {orc' : OracleFeas Ω' X' T' α} (hsp : SpaceSim RS RX RC sp sp')
    (ho : FeasSim RΩ RX RC orc orc') (tol : α) (k i : Nat) {w w' s s'} (hw : RΩ w w') (hs : RS s s') :
    Res.Rel (fun p q => p.1.2 = q.1.2 ∧ OptRel RX p.1.1 q.1.1 ∧ RΩ p.2.1 q.2.1 ∧ RS p.2.2 q.2.2)
      (feasLoop orc sp tol k i w s) (feasLoop orc' sp' tol k i w' s') := by
  induction k generalizing i w w' s s' with
  | zero => exact ⟨rfl, trivial, hw, hs⟩
  | succ k ih =>
    unfold feasLoop
    refine (ho.assess _ _ _ _ hw (hsp.xc _ _ hs)).bind ?_
    rintro ⟨c, w1⟩ ⟨c', w1'⟩ ⟨hc, hw1⟩
    simp only at hc hw1
    cases c with
    | none =>
      cases c' with
      | none => exact ⟨rfl, hsp.xc _ _ hs, hw1, hs⟩
      | some c' => exact hc.elim
    | some c =>
      cases c' with
      | none => exact hc.elim
      | some c' =>
        refine (hsp.bias _ _ _ _ hs hc).bind ?_
        rintro ⟨st, s1⟩ ⟨st', s1'⟩ ⟨hst, hs1⟩
        simp only at hst hs1
        subst hst
        simp only [hsp.tsq _ _ hs1]
        split
        · exact ⟨rfl, trivial, hw1, hs1⟩
        · exact ih _ hw1 hs1

theorem optimLoop_sim {orc : OracleOptim Ω X T α} {orc' : OracleOptim Ω' X' T' α} (hsp : SpaceSim RS RX RC sp sp')
    (ho : OptimSim RΩ RX RC orc orc') (tol : α) (k i : Nat) {w w' s s' xb xb'} (g : α) (hx : OptRel RX xb xb')
    (hw : RΩ w w') (hs : RS s s') :
    Res.Rel (fun p q => p.1.2 = q.1.2 ∧ OptRel RX p.1.1 q.1.1 ∧ p.2.1 = q.2.1 ∧ RΩ p.2.2.1 q.2.2.1 ∧ RS p.2.2.2 q.2.2.2)
      (optimLoop orc sp tol k i xb w s g) (optimLoop orc' sp' tol k i xb' w' s' g) := by
  induction k generalizing i w w' s s' xb xb' g with
  | zero => exact ⟨rfl, hx, rfl, hw, hs⟩
  | succ k ih =>
    unfold optimLoop
    refine (ho _ _ _ _ g hw (hsp.xc _ _ hs)).bind ?_
    rintro ⟨⟨c, sh⟩, g1, w1⟩ ⟨⟨c', sh'⟩, g1', w1'⟩ ⟨hc, hsh, hg, hw1⟩
    simp only at hc hsh hg hw1
    subst hsh hg
    have hx1 : OptRel RX (if sh then some (sp.xc s) else xb) (if sh then some (sp'.xc s') else xb') := by
      cases sh
      · exact hx
      · exact hsp.xc _ _ hs
    have hu : Res.Rel (fun p q => p.1 = q.1 ∧ RS p.2 q.2)
        (if sh then sp.updateCentral s c else sp.updateBias s c)
        (if sh then sp'.updateCentral s' c' else sp'.updateBias s' c') := by
      cases sh
      · exact hsp.bias _ _ _ _ hs hc
      · exact hsp.central _ _ _ _ hs hc
    refine hu.bind ?_
    rintro ⟨st, s1⟩ ⟨st', s1'⟩ ⟨hst, hs1⟩
    simp only at hst hs1
    subst hst
    simp only [hsp.tsq _ _ hs1]
    split
    · exact ⟨rfl, hx1, rfl, hw1, hs1⟩
    · exact ih _ _ hx1 hw1 hs1

theorem optimQLoop_sim {orc : OracleOptimQ Ω X T α} {orc' : OracleOptimQ Ω' X' T' α} (hsp : SpaceSim RS RX RC sp sp')
    (ho : OptimQSim RΩ RX RC orc orc') (tol : α) (k i : Nat) {w w' s s' xb xb'} (r : Bool) (g : α)
    (hx : OptRel RX xb xb') (hw : RΩ w w') (hs : RS s s') :
    Res.Rel (fun p q => p.1.2 = q.1.2 ∧ OptRel RX p.1.1 q.1.1 ∧ p.2.1 = q.2.1 ∧ RΩ p.2.2.1 q.2.2.1 ∧ RS p.2.2.2 q.2.2.2)
      (optimQLoop orc sp tol k i xb r w s g) (optimQLoop orc' sp' tol k i xb' r w' s' g) := by
  induction k generalizing i w w' s s' xb xb' r g with
  | zero => exact ⟨rfl, hx, rfl, hw, hs⟩
  | succ k ih =>
    unfold optimQLoop
    refine (ho _ _ _ _ g r hw (hsp.xc _ _ hs)).bind ?_
    rintro ⟨⟨c, sh, xq, ma⟩, g1, w1⟩ ⟨⟨c', sh', xq', ma'⟩, g1', w1'⟩ ⟨hc, hsh, hxq, hma, hg, hw1⟩
    simp only at hc hsh hxq hma hg hw1
    subst hsh hg hma
    have hx1 : OptRel RX (if sh then some xq else xb) (if sh then some xq' else xb') := by
      cases sh
      · exact hx
      · exact hxq
    refine (hsp.q _ _ _ _ hs hc).bind ?_
    rintro ⟨st, s1⟩ ⟨st', s1'⟩ ⟨hst, hs1⟩
    simp only at hst hs1
    subst hst
    cases st with
    | noSoln => exact ⟨rfl, hx1, rfl, hw1, hs1⟩
    | noEffect =>
      simp only [hsp.tsq _ _ hs1]
      split
      · exact ⟨rfl, hx1, rfl, hw1, hs1⟩
      · split
        · exact ⟨rfl, hx1, rfl, hw1, hs1⟩
        · exact ih _ _ _ hx1 hw1 hs1
    | success =>
      simp only [hsp.tsq _ _ hs1]
      split
      · exact ⟨rfl, hx1, rfl, hw1, hs1⟩
      · exact ih _ _ _ hx1 hw1 hs1
    | unknown =>
      simp only [hsp.tsq _ _ hs1]
      split
      · exact ⟨rfl, hx1, rfl, hw1, hs1⟩
      · exact ih _ _ _ hx1 hw1 hs1

/-- two adaptors in lockstep -/
structure AdSim (RΩ : Ω → Ω' → Prop) (RS : S → S' → Prop) (a : BSearchAdaptor Ω S α) (a' : BSearchAdaptor Ω' S' α) : Prop where
  omega : RΩ a.omega a'.omega
  space : RS a.space a'.space
  options : a.options = a'.options

theorem assessBs_sim {orc : OracleFeas Ω X T α} {orc' : OracleFeas Ω' X' T' α} (hsp : SpaceSim RS RX RC sp sp')
    (ho : FeasSim RΩ RX RC orc orc') {a : BSearchAdaptor Ω S α} {a' : BSearchAdaptor Ω' S' α} (ha : AdSim RΩ RS a a')
    (g : α) : Res.Rel (fun p q => p.1 = q.1 ∧ AdSim RΩ RS p.2 q.2) (a.assessBs orc sp g) (a'.assessBs orc' sp' g) := by
  unfold BSearchAdaptor.assessBs
  refine (ho.update _ _ g ha.omega).bind ?_
  intro w w' hw
  unfold cuttingPlaneFeas
  rw [ha.options]
  refine (feasLoop_sim hsp ho _ _ _ hw ha.space).bind ?_
  rintro ⟨⟨x, i⟩, w1, s1⟩ ⟨⟨x', i'⟩, w1', s1'⟩ ⟨hi, hx, hw1, hs1⟩
  simp only at hi hx hw1 hs1
  cases x with
  | none =>
    cases x' with
    | none => exact ⟨rfl, hw1, ha.space, rfl⟩
    | some _ => exact hx.elim
  | some x =>
    cases x' with
    | none => exact hx.elim
    | some x' => exact ⟨rfl, hw1, hsp.setXc _ _ _ _ ha.space hx, rfl⟩

theorem bsearchLoop_sim {Ω Ω' : Type} {RA : Ω → Ω' → Prop} {orc : OracleBS Ω α} {orc' : OracleBS Ω' α}
    (ho : ∀ a a' g, RA a a' → Res.Rel (fun p q => p.1 = q.1 ∧ RA p.2 q.2) (orc.assess a g) (orc'.assess a' g))
    (tol : α) (k i : Nat) {a a'} (ha : RA a a') (lo up : α) :
    Res.Rel (fun p q => p.1 = q.1 ∧ p.2.1 = q.2.1 ∧ RA p.2.2 q.2.2)
      (bsearchLoop orc tol k i a lo up) (bsearchLoop orc' tol k i a' lo up) := by
  induction k generalizing i a a' lo up with
  | zero => exact ⟨rfl, rfl, ha⟩
  | succ k ih =>
    unfold bsearchLoop
    simp only
    split
    · exact ⟨rfl, rfl, ha⟩
    · refine (ho _ _ _ ha).bind ?_
      rintro ⟨f, a1⟩ ⟨f', a1'⟩ ⟨hf, ha1⟩
      simp only at hf ha1
      subst hf
      cases f
      · exact ih _ ha1 _ _
      · exact ih _ ha1 _ _

theorem bsearch_sim {orc : OracleFeas Ω X T α} {orc' : OracleFeas Ω' X' T' α} (hsp : SpaceSim RS RX RC sp sp')
    (ho : FeasSim RΩ RX RC orc orc') {a : BSearchAdaptor Ω S α} {a' : BSearchAdaptor Ω' S' α} (ha : AdSim RΩ RS a a')
    (iv : α × α) (opts : Options α) :
    Res.Rel (fun p q => p.1 = q.1 ∧ AdSim RΩ RS p.2.1 q.2.1)
      (bsearch (BSearchAdaptor.oracle orc sp) a iv opts) (bsearch (BSearchAdaptor.oracle orc' sp') a' iv opts) := by
  unfold bsearch
  simp only
  cases hb : Scalar.le iv.1 iv.2
  · simp [Res.assert, Res.Rel]
  · simp only [Res.assert, if_true]
    refine Res.Rel.bind (R := fun _ _ => True) trivial ?_
    intro _ _ _
    refine (bsearchLoop_sim (RA := AdSim RΩ RS) (fun a a' g h => assessBs_sim hsp ho h g) _ _ _ ha _ _).bind ?_
    rintro ⟨⟨l, u⟩, i, a1⟩ ⟨⟨l', u'⟩, i', a1'⟩ ⟨h1, h2, h3⟩
    simp only [Prod.mk.injEq] at h1 h2 h3
    obtain ⟨rfl, rfl⟩ := h1
    subst h2
    exact ⟨rfl, h3⟩

end
end Ellalgo

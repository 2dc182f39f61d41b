import Verif.Spec.Binary64Run

/-! When runs of `cutting_plane_optim_q` and of `BSearchAdaptor` stay in the range of `f64`. -/

namespace Ellalgo
variable {T T' Ω Ω' : Type} [Cut64 T T'] [CutType T (B64)] [CutType T' (Fl bin53)]

/-- on the same points, best value and retry flag (those with `P`) two discrete optimisation oracles answer the same -/
def SameOptimQ (orc : OracleOptimQ Ω (Arr B64) T B64) (orc' : OracleOptimQ Ω' (Arr (Fl bin53)) T' (Fl bin53)) (RΩ : Ω → Ω' → Prop)
    (P : Ω' → Arr (Fl bin53) → Fl bin53 → Bool → Prop) : Prop :=
  ∀ w w' x x' g g' r, RΩ w w' → x.Same x' → Same g g' → P w' x' g' r →
    Res.Rel (fun p q => SameCut p.1.1 q.1.1 ∧ p.1.2.1 = q.1.2.1 ∧ p.1.2.2.1.Same q.1.2.2.1 ∧ p.1.2.2.2 = q.1.2.2.2 ∧
      Same p.2.1 q.2.1 ∧ RΩ p.2.2 q.2.2) (orc.assess w x g r) (orc'.assess w' x' g' r)

/-- every step of a run of the discrete optimisation loop in `Fl bin53` stays in range: the oracle's (`P`) and the update's.  The flag is
`retry`: an improvement clears it, a successful cut clears it, a cut without effect sets it. -/
def OptimQSafe (orc' : OracleOptimQ Ω' (Arr (Fl bin53)) T' (Fl bin53)) (n : Nat) (P : Ω' → Arr (Fl bin53) → Fl bin53 → Bool → Prop)
    (tol : Fl bin53) : Nat → Ω' → Ell (Fl bin53) → Fl bin53 → Bool → Prop
  | 0, _, _, _, _ => True
  | k + 1, w, e, g, retry => P w e.xc g retry ∧ ∀ c s x more g' w', orc'.assess w e.xc g retry = .ok ((c, s, x, more), g', w') →
      c.1.IsVecShape n ∧ Ell.Safe n .q e c ∧
      ∀ st e', Ell.space.updateQ e c = .ok (st, e') → Scalar.lt e'.tsq tol = false →
        (st = .success → OptimQSafe orc' n P tol k w' e' g' false) ∧
        (st = .noEffect → more = true → OptimQSafe orc' n P tol k w' e' g' true) ∧
        (st = .unknown → OptimQSafe orc' n P tol k w' e' g' (if s then false else retry))

end Ellalgo

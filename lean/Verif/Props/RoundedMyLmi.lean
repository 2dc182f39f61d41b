import Verif.Props.RoundedLmiCut
import Verif.Props.RoundedPlane
import Verif.Props.RoundedProps
import Verif.Props.RoundedLmiConvergeExamples
import Verif.Props.RoundedExamples

/-! Property C82, runs of `MyLmiOracle` (tests/lmi_tests.rs) in rounded arithmetic: minimise a linear cost subject to two LMIs. -/

namespace Ellalgo
open Matrix
variable {u : ℝ} {R : Rounding u} {d m1 m2 : Nat}

/-- Over a steady space, every run of `cutting_plane_optim` ends and keeps an invariant of the best point, the oracle and the value that
the queries keep. -/
theorem optim_invariant {Ω S T α : Type} [Scalar α] {orc : OracleOptim Ω (Arr α) T α} {sp : Space S (Arr α) T α} {n : Nat} {Q : S → Prop}
    (hsp : sp.Steady n Q) {J : Option (Arr α) → Ω → α → Prop}
    (hJ : ∀ xb w x g, J xb w g → x.IsVecShape n → ∃ c b g' w', orc.assess w x g = .ok ((c, b), g', w') ∧ c.1.IsVecShape n ∧
      J (if b = true then some x else xb) w' g')
    {w : Ω} {s : S} {g : α} (opts : Options α) (hw : J none w g) (hs : Q s) :
    ∃ r k g' w' s', cuttingPlaneOptim orc sp w s g opts = .ok ((r, k), g', w', s') ∧ J r w' g' := by
  have key : ∀ (m n0 : Nat) (xb : Option (Arr α)) (w : Ω) (s : S) (g1 : α), J xb w g1 → Q s →
      ∃ r k g' w' s', optimLoop orc sp opts.tolerance m n0 xb w s g1 = .ok ((r, k), g', w', s') ∧ J r w' g' := by
    intro m
    induction m with
    | zero => exact fun n0 xb w s g1 hw _ => ⟨xb, n0, g1, w, s, rfl, hw⟩
    | succ m ih =>
      intro n0 xb w s g1 hw hs
      obtain ⟨⟨gr, t⟩, b, g2, w1, hq, hc, hJ1⟩ := hJ xb w (sp.xc s) g1 hw (hsp.centre s hs)
      obtain ⟨st, s1, hu, hs1⟩ : ∃ st s1, (if b = true then sp.updateCentral s (gr, t) else sp.updateBias s (gr, t)) =
          .ok (st, s1) ∧ Q s1 := by
        cases b with
        | true => exact hsp.step .central s gr t hs hc
        | false => exact hsp.step .bias s gr t hs hc
      simp only [optimLoop, hq, Res.ok_bind, hu]
      split
      · exact ⟨_, _, _, _, _, rfl, hJ1⟩
      · exact ih _ _ _ _ _ hJ1 hs1
  exact key _ _ _ _ _ _ hw hs

/-- a query of the LMI oracle at a point of the right shape ends, leaves its data alone, and its gradient has the shape of the point -/
theorem lmi_fl_answers {fs : List (Arr (Fl R))} {b x : Arr (Fl R)} {o : LMIOracle (Fl R)} {n : Nat} (hF : FlSymMats d n fs)
    (hb : b.IsMatShape n n) (hbs : (b.flMat n).IsSymm) (ho : LMIOracle.HasData n fs b o)
    (hx : x.IsVecShape d) (hu : 16 * ((n * n + n + d + 2 : Nat) * u) ≤ 1) :
    ∃ r o', o.assess x = .ok (r, o') ∧ LMIOracle.HasData n fs b o' ∧ ∀ g c, r = some (g, c) → g.IsVecShape d := by
  obtain ⟨s, hs⟩ := (Set.finite_range (fun p : Fin n × Fin n => |b.flMat n p.1 p.2| + flLinSize n fs (x.flVec d) p.1 p.2)).bddAbove
  have hf : ∀ k : Fin d, ∃ f, ∀ i j, |flMatAt n fs k i j| ≤ f := by
    intro k
    obtain ⟨f, hf⟩ := (Set.finite_range (fun p : Fin n × Fin n => |flMatAt n fs k p.1 p.2|)).bddAbove
    exact ⟨f, fun i j => hf ⟨(i, j), rfl⟩⟩
  choose f hf using hf
  obtain ⟨h1, h2, h3⟩ := ho
  obtain ⟨r, o', a1, a2, a3, a4, a5⟩ := C82_lmi_cut hF hb hbs h1 h2 h3 hx hu (fun i j => hs ⟨(i, j), rfl⟩) (f := f) hf
  exact ⟨r, o', a1, ⟨a2, a3, a4⟩, fun g c h => (a5 g c h).1⟩

/-- the point was accepted by an LMI oracle with the data `fs`, `b` -/
def LmiAccepts (n : Nat) (fs : List (Arr (Fl R))) (b x : Arr (Fl R)) : Prop :=
  ∃ o o', LMIOracle.HasData n fs b o ∧ o.assess x = .ok (none, o')

/-- one query of `MyLmiOracle` in rounded arithmetic -/
theorem myLmi_fl_query {fs1 fs2 : List (Arr (Fl R))} {b1 b2 c x : Arr (Fl R)} (hF1 : FlSymMats d m1 fs1) (hb1 : b1.IsMatShape m1 m1)
    (hs1 : (b1.flMat m1).IsSymm) (hF2 : FlSymMats d m2 fs2) (hb2 : b2.IsMatShape m2 m2) (hs2 : (b2.flMat m2).IsSymm)
    (hc : c.IsVecShape d) (hu1 : 16 * ((m1 * m1 + m1 + d + 2 : Nat) * u) ≤ 1) (hu2 : 16 * ((m2 * m2 + m2 + d + 2 : Nat) * u) ≤ 1)
    (hx : x.IsVecShape d) {o : MyLmi (LMIOracle (Fl R)) (Fl R)} (hoc : o.c = c) (ho1 : LMIOracle.HasData m1 fs1 b1 o.lmi1)
    (ho2 : LMIOracle.HasData m2 fs2 b2 o.lmi2) (hi1 : -1 ≤ o.idx) (hi2 : o.idx < 3) (γ : Fl R) :
    ∃ g b s γ' o' f0, (MyLmi.oracle LMIOracle.oracle).assess o x γ = .ok (((g, b), s), γ', o') ∧ g.IsVecShape d ∧
      o'.c = c ∧ LMIOracle.HasData m1 fs1 b1 o'.lmi1 ∧ LMIOracle.HasData m2 fs2 b2 o'.lmi2 ∧ -1 ≤ o'.idx ∧ o'.idx < 3 ∧
      c.dot x = .ok f0 ∧ γ'.val ≤ γ.val ∧
      (s = true → LmiAccepts m1 fs1 b1 x ∧ LmiAccepts m2 fs2 b2 x ∧ γ' = f0) := by
  have hn8 : u ≤ 1 / 8 := by
    have h0 := R.unit_nonneg
    have : (1 : ℝ) ≤ ((m1 * m1 + m1 + d + 2 : Nat) : ℝ) := by exact_mod_cast (by omega)
    nlinarith
  obtain ⟨f0, hf0, -⟩ := C71_dot_error c x hc hx
  obtain ⟨r, idx', s', k1, k2, -, k4, k5⟩ := rrLoop_spec (lo := 0) (hi := 3) (body := myLmiBody LMIOracle.oracle c x f0)
    (fun V s => LMIOracle.HasData m1 fs1 b1 s.2.1 ∧ LMIOracle.HasData m2 fs2 b2 s.2.2 ∧ s.1.val ≤ γ.val ∧
      (V 0 → LmiAccepts m1 fs1 b1 x) ∧ (V 1 → LmiAccepts m2 fs2 b2 x) ∧ (V 2 → s.1 = f0))
    (fun _ b s => LMIOracle.HasData m1 fs1 b1 s.2.1 ∧ LMIOracle.HasData m2 fs2 b2 s.2.2 ∧ s.1.val ≤ γ.val ∧ b.1.IsVecShape d)
    (idx := o.idx) (s := (γ, o.lmi1, o.lmi2)) (by omega) (fun _ => hi2)
    ⟨ho1, ho2, le_rfl, False.elim, False.elim, False.elim⟩
    (by
      rintro V i ⟨g, l1, l2⟩ hl hh ⟨p1, p2, p3, p4, p5, p6⟩
      obtain rfl | rfl | rfl : i = 0 ∨ i = 1 ∨ i = 2 := by omega
      · obtain ⟨r, l', q1, q2, q3⟩ := lmi_fl_answers hF1 hb1 hs1 p1 hx hu1
        refine ⟨r, (g, l', l2), ?_, ?_, ?_⟩
        · show (LMIOracle.assess l1 x >>= _) = _
          rw [q1]; rfl
        · rintro rfl
          exact ⟨q2, p2, p3, fun _ => ⟨l1, l', p1, q1⟩, fun h => p5 (by simpa using h), fun h => p6 (by simpa using h)⟩
        · rintro ⟨gr, cc⟩ rfl
          exact ⟨q2, p2, p3, q3 _ _ rfl⟩
      · obtain ⟨r, l', q1, q2, q3⟩ := lmi_fl_answers hF2 hb2 hs2 p2 hx hu2
        refine ⟨r, (g, l1, l'), ?_, ?_, ?_⟩
        · show (LMIOracle.assess l2 x >>= _) = _
          rw [q1]; rfl
        · rintro rfl
          exact ⟨p1, q2, p3, fun h => p4 (by simpa using h), fun _ => ⟨l2, l', p2, q1⟩, fun h => p6 (by simpa using h)⟩
        · rintro ⟨gr, cc⟩ rfl
          exact ⟨p1, q2, p3, q3 _ _ rfl⟩
      · by_cases hgt : 0 < (f0 - g).val
        · refine ⟨some (c, ⟨f0 - g⟩), (g, l1, l2), ?_, by simp, ?_⟩
          · simp only [myLmiBody, Scalar.gt]
            simp
            exact hgt
          · rintro b h
            simp only [Option.some.injEq] at h
            subst h
            exact ⟨p1, p2, p3, hc⟩
        · refine ⟨none, (f0, l1, l2), ?_, ?_, by simp⟩
          · simp only [myLmiBody, Scalar.gt]
            simp
            exact not_lt.1 hgt
          · intro _
            refine ⟨p1, p2, ?_, fun h => p4 (by simpa using h), fun h => p5 (by simpa using h), fun _ => rfl⟩
            have h1 : ¬ 0 < f0.val - g.val := fun h => hgt ((rnd_pos_iff R hn8 _).2 h)
            show f0.val ≤ γ.val
            have : g.val ≤ γ.val := p3
            linarith)
    (by
      rintro V W s hVW ⟨p1, p2, p3, p4, p5, p6⟩
      exact ⟨p1, p2, p3, fun h => p4 ((hVW 0 (by norm_num) (by norm_num)).2 h), fun h => p5 ((hVW 1 (by norm_num) (by norm_num)).2 h),
        fun h => p6 ((hVW 2 (by norm_num) (by norm_num)).2 h)⟩)
  obtain ⟨g', l1', l2'⟩ := s'
  obtain ⟨j1, j2⟩ := k2 (by norm_num)
  have hr' : rrLoop 0 3 (myLmiBody LMIOracle.oracle c x f0) 3 o.idx (γ, o.lmi1, o.lmi2) = .ok (r, idx', g', l1', l2') := k1
  cases r with
  | none =>
    obtain ⟨p1, p2, p3, p4, p5, p6⟩ := k4 rfl
    refine ⟨c, ⟨0⟩, true, g', ⟨idx', c, l1', l2'⟩, f0, ?_, hc, rfl, p1, p2, (show -1 ≤ idx' by omega), j2, hf0, p3,
      fun _ => ⟨p4 (by norm_num), p5 (by norm_num), p6 (by norm_num)⟩⟩
    simp [MyLmi.oracle, MyLmi.assess, hoc, hf0, hr']
  | some cut =>
    obtain ⟨-, -, p1, p2, p3, p4⟩ := k5 _ rfl
    refine ⟨cut.1, cut.2, false, g', ⟨idx', c, l1', l2'⟩, f0, ?_, p4, rfl, p1, p2, (show -1 ≤ idx' by omega), j2, hf0, p3, by simp⟩
    simp [MyLmi.oracle, MyLmi.assess, hoc, hf0, hr']

/-- **C82** (`MyLmiOracle`)  Minimising `c · x` subject to two LMIs `B₁ - Σ xₖ F₁ₖ ≻ 0` and `B₂ - Σ xₖ F₂ₖ ≻ 0` in rounded arithmetic, from
any ellipsoid, starting value and position: the run does not panic, the value never rises, and a returned point satisfies both inequalities
up to `4 m (m+d+1) u s` in its eigenvalues, where `s` bounds the sums of the absolute values of the terms in the entries.  Its cost is at
most the starting value, up to the error of the dot product. -/
theorem C82_two_lmis_run {fs1 fs2 : List (Arr (Fl R))} {b1 b2 c : Arr (Fl R)} (hd : 0 < d) (hF1 : FlSymMats d m1 fs1)
    (hb1 : b1.IsMatShape m1 m1) (hs1 : (b1.flMat m1).IsSymm) (hF2 : FlSymMats d m2 fs2) (hb2 : b2.IsMatShape m2 m2)
    (hs2 : (b2.flMat m2).IsSymm) (hc : c.IsVecShape d) (hu1 : 16 * ((m1 * m1 + m1 + d + 2 : Nat) * u) ≤ 1)
    (hu2 : 16 * ((m2 * m2 + m2 + d + 2 : Nat) * u) ≤ 1) {o : MyLmi (LMIOracle (Fl R)) (Fl R)} (hoc : o.c = c)
    (ho1 : LMIOracle.HasData m1 fs1 b1 o.lmi1) (ho2 : LMIOracle.HasData m2 fs2 b2 o.lmi2) (hi1 : -1 ≤ o.idx) (hi2 : o.idx < 3)
    {e : Ell (Fl R)} (he : e.Shaped d) (γ : Fl R) (opts : Options (Fl R)) :
    ∃ xb k γ' o' e', cuttingPlaneOptim (MyLmi.oracle LMIOracle.oracle) Ell.space o e γ opts = .ok ((xb, k), γ', o', e') ∧
      γ'.val ≤ γ.val ∧
      ∀ x, xb = some x → x.IsVecShape d ∧
        (∀ s, (∀ i j, |b1.flMat m1 i j| + flLinSize m1 fs1 (x.flVec d) i j ≤ s) →
          (flLmiMat m1 fs1 b1 (x.flVec d) + (4 * m1 * (m1 + d + 1 : Nat) * u * s) • (1 : Matrix (Fin m1) (Fin m1) ℝ)).PosDef) ∧
        (∀ s, (∀ i j, |b2.flMat m2 i j| + flLinSize m2 fs2 (x.flVec d) i j ≤ s) →
          (flLmiMat m2 fs2 b2 (x.flVec d) + (4 * m2 * (m2 + d + 1 : Nat) * u * s) • (1 : Matrix (Fin m2) (Fin m2) ℝ)).PosDef) ∧
        c.flVec d ⬝ᵥ x.flVec d ≤ γ.val + ((1 + u) ^ (d + 1) - 1) * ∑ i, |c.flVec d i| * |x.flVec d i| := by
  have hu0 := R.unit_nonneg
  have weak : ∀ m : Nat, 16 * ((m * m + m + d + 2 : Nat) * u) ≤ 1 → 16 * ((m + d + 1 : Nat) * u) ≤ 1 := by
    intro m h
    have : ((m + d + 1 : Nat) : ℝ) ≤ ((m * m + m + d + 2 : Nat) : ℝ) := by
      exact_mod_cast (by have := Nat.zero_le (m * m); omega)
    have := mul_le_mul_of_nonneg_right this hu0
    linarith
  obtain ⟨xb, k, γ', o', e', h1, h2⟩ := optim_invariant (orc := MyLmi.oracle LMIOracle.oracle) (C86_ell_steady (α := Fl R) (T := SingleCut (Fl R)) (n := d) hd).1
    (J := fun xb o g => o.c = c ∧ LMIOracle.HasData m1 fs1 b1 o.lmi1 ∧ LMIOracle.HasData m2 fs2 b2 o.lmi2 ∧ -1 ≤ o.idx ∧ o.idx < 3 ∧
      g.val ≤ γ.val ∧ ∀ x, xb = some x → x.IsVecShape d ∧ LmiAccepts m1 fs1 b1 x ∧ LmiAccepts m2 fs2 b2 x ∧
        ∃ f0, c.dot x = .ok f0 ∧ f0.val ≤ γ.val)
    (by
      rintro xb o x g ⟨p1, p2, p3, p4, p5, p6, p7⟩ hx
      obtain ⟨gr, b, s, γ', o', f0, q1, q2, q3, q4, q5, q6, q7, q8, q9, q10⟩ :=
        myLmi_fl_query hF1 hb1 hs1 hF2 hb2 hs2 hc hu1 hu2 hx p1 p2 p3 p4 p5 g
      refine ⟨_, _, _, _, q1, q2, q3, q4, q5, q6, q7, q9.trans p6, ?_⟩
      cases s with
      | false => exact fun y hy => p7 y (by simpa using hy)
      | true =>
        intro y hy
        simp only [if_true, Option.some.injEq] at hy
        subst hy
        obtain ⟨a1, a2, rfl⟩ := q10 rfl
        exact ⟨hx, a1, a2, _, q8, q9.trans p6⟩)
    opts ⟨hoc, ho1, ho2, hi1, hi2, le_rfl, by simp⟩ he
  obtain ⟨-, -, -, -, -, g1, g2⟩ := h2
  refine ⟨xb, k, γ', o', e', h1, g1, fun x hxb => ?_⟩
  obtain ⟨hx, ⟨l1, l1', a1, a2⟩, ⟨l2, l2', a3, a4⟩, f0, a5, a6⟩ := g2 x hxb
  refine ⟨hx, fun s hs => ?_, fun s hs => ?_, ?_⟩
  · exact (C82_lmi_rounded hF1 hb1 hs1 a1.1 a1.2.1 ⟨a1.2.2.1, a1.2.2.2.1⟩ hx (weak _ hu1) hs).1 _ a2
  · exact (C82_lmi_rounded hF2 hb2 hs2 a3.1 a3.2.1 ⟨a3.2.2.1, a3.2.2.2.1⟩ hx (weak _ hu2) hs).1 _ a4
  · obtain ⟨r, hr, herr⟩ := C71_dot_error c x hc hx
    rw [a5] at hr
    obtain rfl : f0 = r := by simpa using hr
    have := (abs_le.1 herr).1
    linarith

/-- C82: in `f64` rounding, from the disc of C71 and starting value `1000`, minimise `x` over the disc of the LMI of C108 (taken twice):
every run ends, and a returned point `x` lies in the disc up to a small multiple of the unit roundoff -/
example (opts : Options (Fl bin53)) : ∃ xb k γ' o' e',
    cuttingPlaneOptim (MyLmi.oracle LMIOracle.oracle) Ell.space
      ⟨-1, Arr.ofList [1, 0], LMIOracle.new [ExLmiFl.F1, ExLmiFl.F2] ExLmiFl.B, LMIOracle.new [ExLmiFl.F1, ExLmiFl.F2] ExLmiFl.B⟩
      ExFl.disc ⟨1000⟩ opts = .ok ((xb, k), γ', o', e') ∧ γ'.val ≤ 1000 ∧
      ∀ x, xb = some x → x.IsVecShape 2 := by
  have hb : (ExLmiFl.B (R := bin53)).IsMatShape 2 2 := ⟨rfl, rfl, rfl⟩
  have hs : ((ExLmiFl.B (R := bin53)).flMat 2).IsSymm := by
    rw [ExLmiFl.B_mat, IsSymm]
    ext i j
    fin_cases i <;> fin_cases j <;> rfl
  have ho : LMIOracle.HasData 2 [ExLmiFl.F1, ExLmiFl.F2] ExLmiFl.B (LMIOracle.new [ExLmiFl.F1, ExLmiFl.F2] (ExLmiFl.B (R := bin53))) :=
    ⟨rfl, rfl, rfl, ⟨rfl, rfl, rfl⟩, ⟨rfl, rfl, rfl⟩⟩
  obtain ⟨xb, k, γ', o', e', h1, h2, h3⟩ := C82_two_lmis_run (c := Arr.ofList [1, 0])
    (o := ⟨-1, Arr.ofList [1, 0], LMIOracle.new [ExLmiFl.F1, ExLmiFl.F2] ExLmiFl.B, LMIOracle.new [ExLmiFl.F1, ExLmiFl.F2] ExLmiFl.B⟩)
    (by norm_num) ExLmiFl.syms hb hs ExLmiFl.syms hb hs ⟨rfl, rfl, rfl⟩ (by norm_num) (by norm_num) rfl ho ho (by norm_num) (by norm_num)
    ExFl.disc_shaped ⟨1000⟩ opts
  exact ⟨xb, k, γ', o', e', h1, h2, fun x hx => (h3 x hx).1⟩

end Ellalgo

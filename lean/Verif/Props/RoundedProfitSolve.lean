import Verif.Lib.ProfitFlQuery
import Verif.Props.RoundedDrift
import Verif.Props.RoundedBsearchSolve

/-! # C115: profit maximisation in rounded arithmetic of high enough precision -/

namespace Ellalgo
open Matrix
open scoped ComplexOrder
variable {d : ProfitData}

/-- a deep cut through bounded points has a gradient that is not small -/
theorem grad_low {g z x : Fin 2 → ℝ} {Z F c : ℝ} (hZF : 0 < Z + F) (hz : ∀ i, |z i| ≤ Z) (hx : ∀ i, |x i| ≤ F)
    (hg : g ⬝ᵥ (z - x) ≤ -c) : c / (2 * (Z + F)) ≤ norm2 g := by
  have h2 := neg_le_of_abs_le (dot_le_norm2 g (z - x))
  have h3 : norm2 (z - x) ≤ 2 * (Z + F) := by
    have k : ∀ i, |(z - x) i| ≤ Z + F := fun i => (abs_sub _ _).trans (add_le_add (hz i) (hx i))
    refine Real.sqrt_le_iff.2 ⟨by positivity, ?_⟩
    rw [dotProduct, Fin.sum_univ_two]
    have k0 := mul_self_le_mul_self (abs_nonneg _) (k 0)
    have k1 := mul_self_le_mul_self (abs_nonneg _) (k 1)
    rw [abs_mul_abs_self] at k0 k1
    nlinarith [mul_pos hZF hZF]
  have h4 := mul_le_mul_of_nonneg_left h3 (norm2_nonneg g)
  rw [div_le_iff₀ (by positivity)]
  linarith

/-- Any oracle that answers like `ProfitOracle` with elasticities `el y` that depend only on the queried point `y`. -/
theorem profit_solved_core (h : d.Pos) (N K : Nat) (B κ r P A b margin ε : ℝ) (hB : 0 < B) (hκ : 0 < κ) (hr : 0 < r) (hA : 0 ≤ A)
    (hb : b < 1) (hmar : 0 < margin) (hε : 0 < ε) :
    ∃ u0 > 0, ∃ τ > 0, ∀ u ≤ u0, ∀ (R : Rounding u) (Ω : Type) (orc : OracleOptim Ω (Arr (Fl R)) (SingleCut (Fl R)) (Fl R))
      (J : Ω → Prop) (el : Arr (Fl R) → Fin 2 → ℝ) (m : Fin 2 → ℝ) (w : Ω) (e : Ell (Fl R)) (γ : Fl R) (opts : Options (Fl R)) (V : ℝ),
      (∀ w y γ, J w → y.IsVecShape 2 → ∃ o : ProfitOracle (Fl R), o.FlFor { d with elas := el y } ∧
        ∀ g b sh γ' o', ProfitOracle.oracle.assess o y γ = .ok (((g, ⟨b⟩), sh), γ', o') → o'.FlFor { d with elas := el y } →
          ∃ w', orc.assess w y γ = .ok (((g, ⟨b⟩), sh), γ', w') ∧ J w') →
      (∀ y i, 0 ≤ el y i ∧ el y i ≤ A) → (∀ y, el y 1 ≤ b) → J w →
      e.Shaped 2 → e.helper = EllCalc.new 2 → e.kappa.val = κ → (e.mq.flMat 2).PosDef →
      (∀ i j, |e.mq.flMat 2 i j| ≤ B) → norm2 m ≤ P → ball m r ⊆ ellipsoid (e.mq.flMat 2) κ (e.xc.flVec 2) →
      (∀ z ∈ ball m r, z 0 ≤ Real.log d.limit - margin ∧ ∀ y, V ≤ ({ d with elas := el y } : ProfitData).profit z) →
      0 ≤ γ.val → opts.tolerance.val ≤ τ →
      6 * Real.log (16 * (κ • e.mq.flMat 2).det / r ^ 4) < N → N ≤ opts.maxIters → opts.maxIters ≤ K →
      ∃ xb k γ' w' e', cuttingPlaneOptim orc Ell.space w e γ opts = .ok ((xb, k), γ', w', e') ∧ V - ε ≤ γ'.val ∧
        γ.val - ε ≤ γ'.val ∧
        (xb = none ∧ γ' = γ ∨ ∃ x, xb = some x ∧ x.IsVecShape 2 ∧ x.flVec 2 0 ≤ R.rnd (Real.log d.limit) ∧
          |γ'.val - ({ d with elas := el x } : ProfitData).profit (x.flVec 2)| ≤ ε) := by
  obtain ⟨F, hF⟩ : ∃ F, F = |P| + 2 * √(2 ^ N * κ * ((2 : ℕ) * (2 * B))) := ⟨_, rfl⟩
  obtain ⟨Z, hZ⟩ : ∃ Z, Z = |P| + r := ⟨_, rfl⟩
  have hF0 : 0 ≤ F := by rw [hF]; positivity
  have hZ0 : 0 < Z := by rw [hZ]; positivity
  obtain ⟨Q, hQ⟩ : ∃ Q, Q = d.price * d.scale * Real.exp (2 * (A * Z)) := ⟨_, rfl⟩
  have hQ0 : 0 < Q := by rw [hQ]; exact mul_pos (mul_pos h.price h.scale) (Real.exp_pos _)
  obtain ⟨δ, hδ⟩ : ∃ δ, δ = min margin (ε / 2 / Q) := ⟨_, rfl⟩
  have hδ0 : 0 < δ := by rw [hδ]; positivity
  obtain ⟨C, hC, u1, p1, hquery⟩ := profit_query (F := F) (Z := Z) (Nc := K) h hA hb hF0 hZ0.le hδ0 (Nat.cast_nonneg K)
  obtain ⟨u2, p2, hloop⟩ := optim_drift_high_precision 2 N B κ r P le_rfl hB hκ hr
  obtain ⟨G, hG⟩ : ∃ G, G = δ / 4 / (2 * (Z + F)) := ⟨_, rfl⟩
  have hG0 : 0 < G := by rw [hG]; positivity
  refine ⟨min (min u1 u2) (ε / 2 / ((K + 1) * C)), by positivity, r ^ 2 * G ^ 2 / 8, by positivity,
    fun u hu R Ω orc J el m w e γ opts V horc hel helb hJ he hh hek hM hEB hmP hE hV hγ htol hN hit hK => ?_⟩
  simp only [le_min_iff] at hu
  obtain ⟨⟨hu1, hu2⟩, hu3⟩ := hu
  have hu0 := R.unit_nonneg
  rw [le_div_iff₀ (by positivity)] at hu3
  have hη0 : 0 ≤ C * u := by positivity
  have hKη : (K : ℝ) * (C * u) ≤ ε / 2 := by nlinarith
  have hCu : C * u ≤ ε := by
    have : 0 ≤ (K : ℝ) * (C * u) := by positivity
    nlinarith
  have hMη : (opts.maxIters : ℝ) * (C * u) ≤ ε / 2 :=
    (mul_le_mul_of_nonneg_right (by exact_mod_cast hK) hη0).trans hKη
  have hpos : ∀ a, ({ d with elas := a } : ProfitData).Pos := fun a => ⟨h.price, h.scale, h.limit, h.cost⟩
  obtain ⟨S, hS⟩ : ∃ S : ℝ → Set (Fin 2 → ℝ), S = fun γ => {z | (∀ i, |z i| ≤ Z) ∧ z 0 ≤ Real.log d.limit - δ ∧
    ∀ y : Arr (Fl R), ({ d with elas := el y } : ProfitData).slack (max γ 0) z ≤ -δ} := ⟨_, rfl⟩
  have hanti : Antitone S := by
    intro s t hst z hz
    rw [hS] at hz ⊢
    exact ⟨hz.1, hz.2.1, fun y => (slack_mono (hpos _) (le_max_right _ _) (max_le_max hst le_rfl)).trans (hz.2.2 y)⟩
  have hdrift : FlDriftOptim 2 orc (fun i w γ => J w ∧ -((i : ℝ) * (C * u)) ≤ γ.val) S
      (fun x γ' => x.flVec 2 0 ≤ R.rnd (Real.log d.limit) ∧
        |γ'.val - ({ d with elas := el x } : ProfitData).profit (x.flVec 2)| ≤ C * u) G (C * u)
      (P + 2 * √(2 ^ N * κ * ((2 : ℕ) * (2 * B)))) opts.maxIters := by
    rintro i hi w x γ ⟨hw, hγi⟩ hx
    obtain ⟨o, ho, hans⟩ := horc w x γ hw hx
    obtain ⟨g, β, sh, γ', o', q1, q2, q3, q4, q5, q6, q7⟩ := hquery u hu1 R o (el x) ho (hel x) (helb x) x hx γ (by
      refine le_trans (neg_le_neg (mul_le_mul_of_nonneg_right ?_ hη0)) hγi
      exact_mod_cast (hi.le.trans hK))
    obtain ⟨w', hq, hw'⟩ := hans g β sh γ' o' q1 q2
    refine ⟨g, β, sh, γ', w', hq, ⟨hw', by push_cast; linarith⟩, q4, q3, q5, fun hs => (q6 hs).1, fun hxn hne => ?_⟩
    have hxF : norm2 (x.flVec 2) ≤ F := hxn.trans (by rw [hF]; linarith [le_abs_self P])
    have hxi : ∀ i, |x.flVec 2 i| ≤ F := fun i => (norm2_coord _ i).trans hxF
    have hcut : ∀ z ∈ S γ'.val, g.flVec 2 ⬝ᵥ (z - x.flVec 2) + (if sh = true then 0 else β.val) ≤ -δ / 4 := by
      intro z hz
      rw [hS] at hz
      exact q7 hxi z hz.1 hz.2.1 (hz.2.2 x)
    have hβ : 0 ≤ (if sh = true then 0 else β.val) := by
      cases sh
      · exact (q6 rfl).2.le
      · exact le_rfl
    have hgn : G ≤ norm2 (g.flVec 2) := by
      obtain ⟨z, hz⟩ := hne
      have h1 := hcut z hz
      rw [hS] at hz
      rw [hG]
      exact grad_low (by positivity) hz.1 hxi (by linarith)
    have hGs : G ^ 2 ≤ normSq (g.flVec 2) := by
      have h1 := mul_self_le_mul_self hG0.le hgn
      rw [norm2_sq] at h1
      rw [sq]; exact h1
    refine ⟨fun h0 => ?_, hGs, fun hs z hz => ?_, fun hs => ⟨(q6 hs).2.le, fun z hz => ?_⟩⟩
    · rw [h0] at hGs
      simp [normSq] at hGs
      exact absurd hGs hG0.ne'
    · have := hcut z hz
      rw [if_pos hs] at this
      linarith
    · have := hcut z hz
      rw [hs, if_neg (by simp)] at this
      linarith
  have hN' : 2 * (((2 : ℕ) : ℝ) + 1) * Real.log (4 ^ 2 * (κ • e.mq.flMat 2).det / (r ^ 2) ^ 2) < N := by
    rw [show (2 : ℝ) * (((2 : ℕ) : ℝ) + 1) = 6 by norm_num, show (4 : ℝ) ^ 2 = 16 by norm_num, ← pow_mul]
    exact hN
  obtain ⟨xb, k, γ', w', e', r1, r2, r3, r4⟩ := hloop u hu2 R Ω orc _ S _ G (C * u) m w e γ opts hanti hη0 he hh hek hM hEB hmP hE
    ⟨hJ, by simpa using hγ⟩ hdrift htol hN' hit
  refine ⟨xb, k, γ', w', e', r1, ?_, by linarith, ?_⟩
  · by_contra hcon
    rw [not_le] at hcon
    refine r4 fun z hz => ?_
    obtain ⟨v1, v2⟩ := hV z hz
    have hz' : normSq (z - m) ≤ r ^ 2 := hz
    have hzZ : ∀ i, |z i| ≤ Z := by
      intro i
      have h1 := norm2_coord z i
      have h2 : norm2 (z - m) ≤ r := Real.sqrt_le_iff.2 ⟨hr.le, hz'⟩
      have h3 := norm2_sub_le z m
      rw [hZ]
      linarith [le_abs_self P]
    rw [hS]
    refine ⟨hzZ, v1.trans (by rw [hδ]; linarith [min_le_left margin (ε / 2 / Q)]), fun y => ?_⟩
    rw [max_eq_left (by linarith)]
    have hyA : ∀ i, |el y i| ≤ A := fun i => by rw [abs_of_nonneg (hel y i).1]; exact (hel y i).2
    have a1 := revenue_box_le h hyA hzZ
    rw [← hQ] at a1
    have a2 := v2 y
    have a3 : γ'.val + opts.maxIters * (C * u) + ε / 2 ≤ ({ d with elas := el y } : ProfitData).profit z := by linarith
    have a4 := slack_of_profit (hpos (el y)) (hγ.trans r2) (half_pos hε).le a3 a1
    have a5 : δ ≤ ε / 2 / Q := by rw [hδ]; exact min_le_right _ _
    exact a4.trans (neg_le_neg a5)
  · rcases r3 with r3 | ⟨x, x1, x2, x3, x4⟩
    · exact .inl r3
    · exact .inr ⟨x, x1, x2, x3, x4.trans hCu⟩

/-- the profit changes little with the point and the elasticities -/
theorem profit_near (h : d.Pos) {a a' z z' : Fin 2 → ℝ} {A Z t s : ℝ} (ha : ∀ i, |a i| ≤ A) (ha' : ∀ i, |a' i| ≤ A) (hz : ∀ i, |z i| ≤ Z)
    (hz' : ∀ i, |z' i| ≤ Z) (hzz : ∀ i, |z i - z' i| ≤ t) (haa : ∀ i, |a i - a' i| ≤ s) :
    ({ d with elas := a' } : ProfitData).profit z' ≤ ({ d with elas := a } : ProfitData).profit z +
      (d.price * d.scale * Real.exp (2 * (A * Z)) * (2 * (A * t + s * Z)) + (d.cost 0 + d.cost 1) * Real.exp Z * t) := by
  have hA : 0 ≤ A := (abs_nonneg _).trans (ha 0)
  have hZ : 0 ≤ Z := (abs_nonneg _).trans (hz 0)
  have ht : 0 ≤ t := (abs_nonneg _).trans (hzz 0)
  have hs : 0 ≤ s := (abs_nonneg _).trans (haa 0)
  have hps := mul_pos h.price h.scale
  have hdot : ∀ {a z : Fin 2 → ℝ}, (∀ i, |a i| ≤ A) → (∀ i, |z i| ≤ Z) → a ⬝ᵥ z ≤ 2 * (A * Z) := by
    intro a z ha hz
    rw [dotProduct, Fin.sum_univ_two]
    have key : ∀ i, a i * z i ≤ A * Z := fun i => (le_abs_self _).trans (by
      rw [abs_mul]; exact mul_le_mul (ha i) (hz i) (abs_nonneg _) hA)
    linarith [key 0, key 1]
  have hdiff : |a' ⬝ᵥ z' - a ⬝ᵥ z| ≤ 2 * (A * t + s * Z) := by
    have key : ∀ i, |a' i * z' i - a i * z i| ≤ A * t + s * Z := by
      intro i
      rw [show a' i * z' i - a i * z i = -(a' i * (z i - z' i)) + -((a i - a' i) * z i) by ring]
      refine (abs_add_le _ _).trans ?_
      rw [abs_neg, abs_neg, abs_mul, abs_mul]
      exact add_le_add (mul_le_mul (ha' i) (hzz i) (abs_nonneg _) hA) (mul_le_mul (haa i) (hz i) (abs_nonneg _) hs)
    rw [dotProduct, dotProduct, Fin.sum_univ_two, Fin.sum_univ_two,
      show a' 0 * z' 0 + a' 1 * z' 1 - (a 0 * z 0 + a 1 * z 1) = (a' 0 * z' 0 - a 0 * z 0) + (a' 1 * z' 1 - a 1 * z 1) by ring]
    refine (abs_add_le _ _).trans ?_
    linarith [key 0, key 1]
  have hrev : ({ d with elas := a' } : ProfitData).revenue z' ≤ ({ d with elas := a } : ProfitData).revenue z +
      d.price * d.scale * Real.exp (2 * (A * Z)) * (2 * (A * t + s * Z)) := by
    rw [ProfitData.revenue_eq, ProfitData.revenue_eq]
    show d.price * d.scale * Real.exp (a' ⬝ᵥ z') ≤ d.price * d.scale * Real.exp (a ⬝ᵥ z) + _
    have h1 := (le_abs_self _).trans (exp_sub_le (hdot ha' hz') (hdot ha hz))
    have h2 := mul_le_mul_of_nonneg_left hdiff (Real.exp_pos (2 * (A * Z))).le
    have h3 := mul_le_mul_of_nonneg_left (h1.trans h2) hps.le
    linarith
  have hexp : d.expense z ≤ d.expense z' + (d.cost 0 + d.cost 1) * Real.exp Z * t := by
    have key : ∀ i, d.cost i * Real.exp (z i) ≤ d.cost i * Real.exp (z' i) + d.cost i * (Real.exp Z * t) := by
      intro i
      have h1 := (le_abs_self _).trans (exp_sub_le (le_of_abs_le (hz i)) (le_of_abs_le (hz' i)))
      have h2 := mul_le_mul_of_nonneg_left (hzz i) (Real.exp_pos Z).le
      have h3 := mul_le_mul_of_nonneg_left (h1.trans h2) (h.cost i).le
      linarith
    rw [ProfitData.expense, ProfitData.expense]
    linarith [key 0, key 1]
  show ({ d with elas := a' } : ProfitData).revenue z' - d.expense z' ≤ ({ d with elas := a } : ProfitData).revenue z - d.expense z + _
  linarith

theorem near_shifted {z x : Fin 2 → ℝ} {r : ℝ} (hr0 : 0 < r) (hr3 : 3 * r ≤ 1) (hx : x ∈ ball ![z 0 - 2 * r, z 1] r) :
    (∀ i, |x i - z i| ≤ 3 * r) ∧ x ∈ ball z 1 ∧ x 0 ≤ z 0 - r := by
  have hx' : normSq (x - ![z 0 - 2 * r, z 1]) ≤ r ^ 2 := hx
  rw [normSq, dotProduct, Fin.sum_univ_two] at hx'
  simp at hx'
  have x0 : |x 0 - (z 0 - 2 * r)| ≤ r := abs_le_of_sq_le_sq (by nlinarith [sq_nonneg (x 1 - z 1)]) hr0.le
  have x1 : |x 1 - z 1| ≤ r := abs_le_of_sq_le_sq (by nlinarith [sq_nonneg (x 0 - (z 0 - 2 * r))]) hr0.le
  rw [abs_le] at x0
  refine ⟨fun i => ?_, ?_, by linarith⟩
  · fin_cases i
    · show |x 0 - z 0| ≤ _
      rw [abs_le]; constructor <;> linarith
    · show |x 1 - z 1| ≤ _
      linarith
  · show normSq (x - z) ≤ 1 ^ 2
    rw [normSq, dotProduct, Fin.sum_univ_two]
    simp only [Pi.sub_apply]
    nlinarith

theorem norm_shifted (z : Fin 2 → ℝ) {r : ℝ} (hr0 : 0 < r) (hr3 : 3 * r ≤ 1) : norm2 ![z 0 - 2 * r, z 1] ≤ norm2 z + 2 := by
  have h1 := norm2_sub_le ![z 0 - 2 * r, z 1] z
  have h2 : norm2 (![z 0 - 2 * r, z 1] - z) ≤ 2 := by
    refine Real.sqrt_le_iff.2 ⟨by norm_num, ?_⟩
    rw [dotProduct, Fin.sum_univ_two]
    simp
    nlinarith
  linarith

theorem profit_optimal_core (h : d.Pos) (B κ P D A b ε : ℝ) (hB : 0 < B) (hκ : 0 < κ) (hD : 0 < D) (hA : 0 ≤ A)
    (hb : b < 1) (hε : 0 < ε) :
    ∃ N : Nat, ∀ K : Nat, ∃ u0 > 0, ∃ τ > 0, ∀ u ≤ u0, ∀ (R : Rounding u) (Ω : Type)
      (orc : OracleOptim Ω (Arr (Fl R)) (SingleCut (Fl R)) (Fl R)) (J : Ω → Prop) (el : Arr (Fl R) → Fin 2 → ℝ) (z : Fin 2 → ℝ) (w : Ω)
      (e : Ell (Fl R)) (γ : Fl R) (opts : Options (Fl R)) (V : ℝ),
      (∀ w y γ, J w → y.IsVecShape 2 → ∃ o : ProfitOracle (Fl R), o.FlFor { d with elas := el y } ∧
        ∀ g b sh γ' o', ProfitOracle.oracle.assess o y γ = .ok (((g, ⟨b⟩), sh), γ', o') → o'.FlFor { d with elas := el y } →
          ∃ w', orc.assess w y γ = .ok (((g, ⟨b⟩), sh), γ', w') ∧ J w') →
      (∀ y i, 0 ≤ el y i ∧ el y i ≤ A) → (∀ y, el y 1 ≤ b) → J w →
      e.Shaped 2 → e.helper = EllCalc.new 2 → e.kappa.val = κ → (e.mq.flMat 2).PosDef →
      (∀ i j, |e.mq.flMat 2 i j| ≤ B) → (κ • e.mq.flMat 2).det ≤ D → norm2 z ≤ P →
      ball z 1 ⊆ ellipsoid (e.mq.flMat 2) κ (e.xc.flVec 2) → z 0 ≤ Real.log d.limit →
      (∀ y, ∃ a : Fin 2 → ℝ, (∀ i, |a i| ≤ A) ∧ (∀ i, |el y i - a i| ≤ A * u) ∧ V ≤ ({ d with elas := a } : ProfitData).profit z) →
      0 ≤ γ.val → opts.tolerance.val ≤ τ → N ≤ opts.maxIters → opts.maxIters ≤ K →
      ∃ xb k γ' w' e', cuttingPlaneOptim orc Ell.space w e γ opts = .ok ((xb, k), γ', w', e') ∧ V - ε ≤ γ'.val ∧
        γ.val - ε ≤ γ'.val ∧
        (xb = none ∧ γ' = γ ∨ ∃ x, xb = some x ∧ x.IsVecShape 2 ∧ x.flVec 2 0 ≤ R.rnd (Real.log d.limit) ∧
          |γ'.val - ({ d with elas := el x } : ProfitData).profit (x.flVec 2)| ≤ ε) := by
  obtain ⟨Z, hZ⟩ : ∃ Z, Z = |P| + 1 := ⟨_, rfl⟩
  have hZ0 : 0 < Z := by rw [hZ]; positivity
  obtain ⟨Q, hQ⟩ : ∃ Q, Q = d.price * d.scale * Real.exp (2 * (A * Z)) := ⟨_, rfl⟩
  have hQ0 : 0 < Q := by rw [hQ]; exact mul_pos (mul_pos h.price h.scale) (Real.exp_pos _)
  obtain ⟨W, hW⟩ : ∃ W, W = (d.cost 0 + d.cost 1) * Real.exp Z := ⟨_, rfl⟩
  have hW0 : 0 < W := by rw [hW]; exact mul_pos (add_pos (h.cost 0) (h.cost 1)) (Real.exp_pos _)
  obtain ⟨r, hr⟩ : ∃ r, r = min (1 / 3) (ε / 4 / (3 * (2 * Q * A + W))) := ⟨_, rfl⟩
  have hr0 : 0 < r := by rw [hr]; positivity
  have hr3 : 3 * r ≤ 1 := by
    have : r ≤ 1 / 3 := hr ▸ min_le_left _ _
    linarith
  have hrε : 3 * r * (2 * Q * A + W) ≤ ε / 4 := by
    have : r ≤ ε / 4 / (3 * (2 * Q * A + W)) := hr ▸ min_le_right _ _
    rw [le_div_iff₀ (by positivity)] at this
    linarith
  obtain ⟨N, hN⟩ := exists_nat_gt (6 * Real.log (16 * D / r ^ 4))
  refine ⟨N, fun K => ?_⟩
  obtain ⟨u0, h0, τ, hτ, hsol⟩ := profit_solved_core h N K B κ r (|P| + 2) A b r (ε / 2) hB hκ hr0 hA hb hr0 (half_pos hε)
  refine ⟨min u0 (ε / 4 / (2 * Q * A * Z + 1)), by positivity, τ, hτ,
    fun u hu R Ω orc J el z w e γ opts V horc hel helb hJ he hh hek hM hEB hdet hzP hE hzl hV hγ htol hit hK => ?_⟩
  rw [le_min_iff] at hu
  obtain ⟨hu1, hu2⟩ := hu
  have hu0 := R.unit_nonneg
  rw [le_div_iff₀ (by positivity)] at hu2
  have hue : Q * (2 * (A * u * Z)) ≤ ε / 4 := by nlinarith
  obtain ⟨m, hm⟩ : ∃ m : Fin 2 → ℝ, m = ![z 0 - 2 * r, z 1] := ⟨_, rfl⟩
  have hnear : ∀ x ∈ ball m r, (∀ i, |x i - z i| ≤ 3 * r) ∧ x ∈ ball z 1 ∧ x 0 ≤ Real.log d.limit - r := by
    intro x hx
    rw [hm] at hx
    obtain ⟨n1, n2, n3⟩ := near_shifted hr0 hr3 hx
    exact ⟨n1, n2, by linarith⟩
  have hdet0 : 0 < (κ • e.mq.flMat 2).det := (hM.smul hκ).det_pos
  have hmP : norm2 m ≤ |P| + 2 := by
    have := norm_shifted z hr0 hr3
    rw [← hm] at this
    linarith [le_abs_self P]
  have hball : ball m r ⊆ ellipsoid (e.mq.flMat 2) κ (e.xc.flVec 2) := fun x hx => hE (hnear x hx).2.1
  have hlog : 6 * Real.log (16 * (κ • e.mq.flMat 2).det / r ^ 4) < N := by
    refine lt_of_le_of_lt (mul_le_mul_of_nonneg_left (Real.log_le_log (by positivity) ?_) (by norm_num)) hN
    exact div_le_div_of_nonneg_right (by linarith) (by positivity)
  have hval : ∀ x ∈ ball m r, x 0 ≤ Real.log d.limit - r ∧ ∀ y, V - ε / 2 ≤ ({ d with elas := el y } : ProfitData).profit x := by
    intro x hx
    obtain ⟨n1, -, n3⟩ := hnear x hx
    refine ⟨n3, fun y => ?_⟩
    obtain ⟨a, a1, a2, a3⟩ := hV y
    have hyA : ∀ i, |el y i| ≤ A := fun i => by rw [abs_of_nonneg (hel y i).1]; exact (hel y i).2
    have hzZ : ∀ i, |z i| ≤ Z := fun i => by
      have := norm2_coord z i
      rw [hZ]; linarith [le_abs_self P]
    have hxZ : ∀ i, |x i| ≤ Z := fun i => by
      have q1 := norm2_coord z i
      have q2 := abs_sub_abs_le_abs_sub (x i) (z i)
      rw [hZ]
      linarith [le_abs_self P, n1 i]
    have := profit_near h hyA a1 hxZ hzZ n1 a2
    rw [← hQ, ← hW] at this
    have e1 : Q * (2 * (A * (3 * r) + A * u * Z)) + W * (3 * r) = 3 * r * (2 * Q * A + W) + Q * (2 * (A * u * Z)) := by ring
    linarith
  obtain ⟨xb, k, γ', w', e', r1, r2, r3, r4⟩ := hsol u hu1 R Ω orc J el m w e γ opts (V - ε / 2) horc hel helb hJ he hh hek hM hEB hmP
    hball hval hγ htol hlog hit hK
  refine ⟨xb, k, γ', w', e', r1, by linarith, by linarith, ?_⟩
  rcases r4 with r4 | ⟨x, x1, x2, x3, x4⟩
  · exact .inl r4
  · exact .inr ⟨x, x1, x2, x3, by linarith⟩

/-- **C115** Profit maximisation in floating point.  Fix the data of the problem with elasticities at least 0 and the second below 1,
bounds `B` for the entries of the first ellipsoid's matrix, its scale `κ`, a bound `D` for the determinant of the scaled matrix, a bound
`P` for the size of a feasible point and an accuracy `ε`.  Then there is a number `N` of steps and, for any larger bound `K` on them, a unit
roundoff `u0` and a tolerance `τ` such that in any arithmetic at least this accurate: `cutting_plane_optim` with `ProfitOracle`, started from
a level `γ ≥ 0` with `N ≤ max_iters ≤ K` and a tolerance at most `τ`, does not panic, and its final value is within `ε` of, or above, the true
profit of every feasible point `z` of size at most `P` around which the first ellipsoid contains a disc of radius 1; the returned point
obeys the stored limit and the value is its true profit up to `ε`. -/
theorem C115_profit_solved (h : d.Pos) (ha : ∀ i, 0 ≤ d.elas i) (ha1 : d.elas 1 < 1) (B κ P D ε : ℝ) (hB : 0 < B) (hκ : 0 < κ)
    (hD : 0 < D) (hε : 0 < ε) :
    ∃ N : Nat, ∀ K : Nat, ∃ u0 > 0, ∃ τ > 0, ∀ u ≤ u0, ∀ (R : Rounding u) (o : ProfitOracle (Fl R)) (z : Fin 2 → ℝ) (e : Ell (Fl R))
      (γ : Fl R) (opts : Options (Fl R)), o.FlFor d → e.Shaped 2 → e.helper = EllCalc.new 2 → e.kappa.val = κ →
      (e.mq.flMat 2).PosDef → (∀ i j, |e.mq.flMat 2 i j| ≤ B) → (κ • e.mq.flMat 2).det ≤ D → norm2 z ≤ P →
      ball z 1 ⊆ ellipsoid (e.mq.flMat 2) κ (e.xc.flVec 2) → z ∈ d.feasible →
      0 ≤ γ.val → opts.tolerance.val ≤ τ → N ≤ opts.maxIters → opts.maxIters ≤ K →
      ∃ xb k γ' o' e', cuttingPlaneOptim ProfitOracle.oracle Ell.space o e γ opts = .ok ((xb, k), γ', o', e') ∧
        d.profit z - ε ≤ γ'.val ∧ γ.val - ε ≤ γ'.val ∧
        (xb = none ∧ γ' = γ ∨ ∃ x, xb = some x ∧ x.IsVecShape 2 ∧ x.flVec 2 0 ≤ R.rnd (Real.log d.limit) ∧
          |γ'.val - d.profit (x.flVec 2)| ≤ ε) := by
  have hA : ∀ i, d.elas i ≤ max (d.elas 0) (d.elas 1) := by
    intro i; fin_cases i
    · exact le_max_left _ _
    · exact le_max_right _ _
  have hA0 := (ha 0).trans (hA 0)
  obtain ⟨N, hN⟩ := profit_optimal_core h B κ P D (max (d.elas 0) (d.elas 1)) (d.elas 1) ε hB hκ hD hA0 ha1 hε
  refine ⟨N, fun K => ?_⟩
  obtain ⟨u0, h0, τ, hτ, hsol⟩ := hN K
  refine ⟨u0, h0, τ, hτ, fun u hu R o z e γ opts ho he hh hek hM hEB hdet hzP hE hz hγ htol hit hK => ?_⟩
  exact hsol u hu R _ ProfitOracle.oracle (fun o => o.FlFor d) (fun _ => d.elas) z o e γ opts (d.profit z)
    (fun w y γ hw _ => ⟨w, hw, fun g b sh γ' o' h1 h2 => ⟨o', h1, h2⟩⟩) (fun _ i => ⟨ha i, hA i⟩) (fun _ => le_rfl) ho he hh hek hM hEB
    hdet hzP hE ((Real.le_log_iff_exp_le h.limit).2 hz)
    (fun _ => ⟨d.elas, fun i => by rw [abs_of_nonneg (ha i)]; exact hA i, fun i => by
      rw [sub_self, abs_zero]; exact mul_nonneg hA0 R.unit_nonneg, le_rfl⟩) hγ htol hit hK

/-- **C115** (robust)  As `C115_profit_solved` for `ProfitRbOracle` with uncertain elasticities: the final value is within `ε` of, or
above, the profit that `z` has for sure, that is with every elasticity within `e1`, `e2` of the nominal one; and it is, up to `ε`, the profit
of the returned point with the worst elasticities there. -/
theorem C115_robust_solved (h : d.Pos) {e1 e2 : ℝ} (he1 : 0 ≤ e1) (he2 : 0 ≤ e2) (ha : e1 ≤ d.elas 0) (ha' : e2 ≤ d.elas 1)
    (ha1 : d.elas 1 + e2 < 1) (B κ P D ε : ℝ) (hB : 0 < B) (hκ : 0 < κ) (hD : 0 < D) (hε : 0 < ε) :
    ∃ N : Nat, ∀ K : Nat, ∃ u0 > 0, ∃ τ > 0, ∀ u ≤ u0, ∀ (R : Rounding u) (o : ProfitRbOracle (Fl R)) (z : Fin 2 → ℝ) (V : ℝ)
      (e : Ell (Fl R)) (γ : Fl R) (opts : Options (Fl R)), o.FlFor d e1 e2 → e.Shaped 2 → e.helper = EllCalc.new 2 → e.kappa.val = κ →
      (e.mq.flMat 2).PosDef → (∀ i j, |e.mq.flMat 2 i j| ≤ B) → (κ • e.mq.flMat 2).det ≤ D → norm2 z ≤ P →
      ball z 1 ⊆ ellipsoid (e.mq.flMat 2) κ (e.xc.flVec 2) → z ∈ d.feasible →
      (∀ a : Fin 2 → ℝ, |a 0 - d.elas 0| ≤ e1 → |a 1 - d.elas 1| ≤ e2 → V ≤ ({ d with elas := a } : ProfitData).profit z) →
      0 ≤ γ.val → opts.tolerance.val ≤ τ → N ≤ opts.maxIters → opts.maxIters ≤ K →
      ∃ xb k γ' o' e', cuttingPlaneOptim ProfitRbOracle.oracle Ell.space o e γ opts = .ok ((xb, k), γ', o', e') ∧
        V - ε ≤ γ'.val ∧ γ.val - ε ≤ γ'.val ∧
        (xb = none ∧ γ' = γ ∨ ∃ x, xb = some x ∧ x.IsVecShape 2 ∧ x.flVec 2 0 ≤ R.rnd (Real.log d.limit) ∧
          |γ'.val - (d.flWorstAt R e1 e2 (x.flVec 2)).profit (x.flVec 2)| ≤ ε) := by
  obtain ⟨A, hA⟩ : ∃ A, A = 2 * (d.elas 0 + e1 + (d.elas 1 + e2)) := ⟨_, rfl⟩
  have hA0 : 0 ≤ A := by rw [hA]; linarith
  obtain ⟨N, hN⟩ := profit_optimal_core h B κ P D A ((d.elas 1 + e2 + 1) / 2) ε hB hκ hD hA0 (by linarith) hε
  refine ⟨N, fun K => ?_⟩
  obtain ⟨u0, h0, τ, hτ, hsol⟩ := hN K
  refine ⟨min (min u0 1) ((1 - (d.elas 1 + e2)) / 2), lt_min (by positivity) (by linarith), τ, hτ,
    fun u hu R o z V e γ opts ho he hh hek hM hEB hdet hzP hE hz hV hγ htol hit hK => ?_⟩
  simp only [le_min_iff] at hu
  obtain ⟨⟨hu1, hu2⟩, hu3⟩ := hu
  have hu0 := R.unit_nonneg
  -- the elasticities before rounding
  obtain ⟨ex, hex⟩ : ∃ ex : (Fin 2 → ℝ) → Fin 2 → ℝ, ex = fun y =>
    ![d.elas 0 + if 0 < y 0 then -e1 else e1, d.elas 1 + if 0 < y 1 then -e2 else e2] := ⟨_, rfl⟩
  have hrn : ∀ y i, (d.flWorstAt R e1 e2 y).elas i = R.rnd (ex y i) := by
    intro y i
    rw [hex]
    fin_cases i <;> rfl
  have hex0 : ∀ y i, 0 ≤ ex y i := by
    intro y i
    rw [hex]
    fin_cases i
    · show 0 ≤ d.elas 0 + if 0 < y 0 then -e1 else e1
      split_ifs <;> linarith
    · show 0 ≤ d.elas 1 + if 0 < y 1 then -e2 else e2
      split_ifs <;> linarith
  have hexA : ∀ y i, ex y i ≤ A / 2 := by
    intro y i
    rw [hex, hA]
    fin_cases i
    · show (d.elas 0 + if 0 < y 0 then -e1 else e1) ≤ _
      split_ifs <;> linarith
    · show (d.elas 1 + if 0 < y 1 then -e2 else e2) ≤ _
      split_ifs <;> linarith
  have hex1 : ∀ y, ex y 1 ≤ d.elas 1 + e2 := by
    intro y
    rw [hex]
    show (d.elas 1 + if 0 < y 1 then -e2 else e2) ≤ _
    split_ifs <;> linarith
  have hdev : ∀ y, |ex y 0 - d.elas 0| ≤ e1 ∧ |ex y 1 - d.elas 1| ≤ e2 := by
    intro y
    rw [hex]
    refine ⟨?_, ?_⟩
    · show |(d.elas 0 + if 0 < y 0 then -e1 else e1) - d.elas 0| ≤ e1
      rw [add_sub_cancel_left]
      split_ifs
      · rw [abs_neg, abs_of_nonneg he1]
      · rw [abs_of_nonneg he1]
    · show |(d.elas 1 + if 0 < y 1 then -e2 else e2) - d.elas 1| ≤ e2
      rw [add_sub_cancel_left]
      split_ifs
      · rw [abs_neg, abs_of_nonneg he2]
      · rw [abs_of_nonneg he2]
  refine hsol u hu1 R _ ProfitRbOracle.oracle (fun o => o.FlFor d e1 e2) (fun y => (d.flWorstAt R e1 e2 (y.flVec 2)).elas) z o e γ opts V
    ?_ ?_ ?_ ho he hh hek hM hEB hdet hzP hE ((Real.le_log_iff_exp_le h.limit).2 hz) ?_ hγ htol hit hK
  · intro w y γ hw hy
    obtain ⟨a, ha, hash, hav⟩ := rb_worst_fl hw hy
    obtain ⟨el, hom⟩ := hw.omega
    refine ⟨{ w.omega with elasticities := a }, ⟨hom.lo, hom.hi, hom.scale, hom.limit, hom.costShape, hom.cost, hash, hav⟩,
      fun g b sh γ' o' h1 h2 => ⟨{ w with omega := o' }, ?_, ⟨⟨_, h2⟩, hw.elasShape, hw.elas, hw.uie0, hw.uie1⟩⟩⟩
    have hq' : ({ w.omega with elasticities := a }).assess y γ = .ok (((g, ⟨b⟩), sh), γ', o') := h1
    simp only [ProfitRbOracle.oracle, ProfitRbOracle.assess, ha, Res.ok_bind, hq']
  · intro y i
    rw [hrn]
    refine ⟨R.nonneg (hex0 _ i), (R.le_of (hexA _ i) (by linarith)).trans ?_⟩
    nlinarith
  · intro y
    rw [hrn]
    refine (R.le_of (hex1 _) (by linarith)).trans ?_
    nlinarith
  · intro y
    refine ⟨ex (y.flVec 2), fun i => ?_, fun i => ?_, hV _ (hdev _).1 (hdev _).2⟩
    · rw [abs_of_nonneg (hex0 _ i)]
      linarith [hexA (y.flVec 2) i]
    · rw [hrn]
      refine (R.err _).trans ?_
      rw [abs_of_nonneg (hex0 _ i)]
      nlinarith [hexA (y.flVec 2) i]

/-! ### a concrete case -/

/-- price 10, scale 1, limit 3, elasticities 1/4, input prices 1 -/
noncomputable def smallFirm : ProfitData := ⟨10, 1, 3, ![1 / 4, 1 / 4], ![1, 1]⟩

theorem smallFirm_pos : smallFirm.Pos :=
  ⟨by norm_num [smallFirm], by norm_num [smallFirm], by norm_num [smallFirm], fun i => by fin_cases i <;> norm_num [smallFirm]⟩

theorem smallFirm_zero (a : Fin 2 → ℝ) : ({ smallFirm with elas := a } : ProfitData).profit 0 = 8 := by
  norm_num [ProfitData.profit, ProfitData.revenue, ProfitData.expense, smallFirm]

theorem disc_unit_ball {M : Matrix (Fin 2) (Fin 2) ℝ} {c : Fin 2 → ℝ} (hM : M = 1) (hc : c = 0) : ball 0 1 ⊆ ellipsoid M 100 c := by
  intro z hz
  have hz' : normSq (z - 0) ≤ 1 ^ 2 := hz
  rw [sub_zero, normSq, dotProduct, Fin.sum_univ_two] at hz'
  exact disc_ellipsoid hM hc (by nlinarith)

/-- From `γ = 0` over the disc of radius 10, in a fine enough arithmetic, the run finds a plan whose true profit is at least 6 (the inputs
`(1, 1)` give 8). -/
example : ∃ (u : ℝ) (R : Rounding u) (N : ℕ) (τ : ℝ) (e : Ell (Fl R)) (x : Arr (Fl R)) (k : Nat) (γ' : Fl R) (o' : ProfitOracle (Fl R))
    (e' : Ell (Fl R)), 0 < τ ∧ Ell.newWithScalar ⟨100⟩ (Arr.ofList [0, 0]) = .ok e ∧
    cuttingPlaneOptim ProfitOracle.oracle Ell.space
      (ProfitOracle.new ⟨10⟩ ⟨1⟩ ⟨3⟩ (Arr.ofList [⟨1 / 4⟩, ⟨1 / 4⟩]) (Arr.ofList [⟨1⟩, ⟨1⟩])) e ⟨0⟩ ⟨N, ⟨τ⟩⟩ = .ok ((some x, k), γ', o', e') ∧
    7 ≤ γ'.val ∧ 6 ≤ smallFirm.profit (x.flVec 2) := by
  obtain ⟨N, hN⟩ := C115_profit_solved smallFirm_pos (fun i => by fin_cases i <;> norm_num [smallFirm]) (by norm_num [smallFirm])
    1 100 1 (((100 : ℝ) • (1 : Matrix (Fin 2) (Fin 2) ℝ)).det) 1 one_pos (by norm_num) (by simp) one_pos
  obtain ⟨u0, h0, τ, hτ, h⟩ := hN N
  obtain ⟨u, hu, R, -⟩ := fine_int u0 h0
  obtain ⟨e, he, he1, he2, -, he3, he4, he5⟩ := disc_new_fl (R := R) ⟨100⟩
  have ho : (ProfitOracle.new (⟨10⟩ : Fl R) ⟨1⟩ ⟨3⟩ (Arr.ofList [⟨1 / 4⟩, ⟨1 / 4⟩]) (Arr.ofList [⟨1⟩, ⟨1⟩])).FlFor smallFirm := by
    have := C95_profit_new (R := R) (price := ⟨10⟩) (scale := ⟨1⟩) (limit := ⟨3⟩) (fl_pair_shape (⟨1 / 4⟩ : Fl R) ⟨1 / 4⟩)
      (fl_pair_shape (⟨1⟩ : Fl R) ⟨1⟩)
    have e1 : (Arr.ofList [(⟨1 / 4⟩ : Fl R), ⟨1 / 4⟩]).flVec 2 = ![1 / 4, 1 / 4] := by funext i; fin_cases i <;> rfl
    have e2 : (Arr.ofList [(⟨1⟩ : Fl R), ⟨1⟩]).flVec 2 = ![1, 1] := by funext i; fin_cases i <;> rfl
    rw [e1, e2] at this
    exact this
  obtain ⟨xb, k, γ', o', e', r1, r2, -, r4⟩ := h u hu R _ 0 e ⟨0⟩ ⟨N, ⟨τ⟩⟩ ho he1 he2 (by rw [he3]) (by rw [he4]; exact PosDef.one)
    (by rw [he4]; intro i j; fin_cases i <;> fin_cases j <;> simp) (by rw [he4]) (by simp [norm2]) (disc_unit_ball he4 he5)
    (by show Real.exp 0 ≤ 3; rw [Real.exp_zero]; norm_num) le_rfl le_rfl le_rfl le_rfl
  have hp : smallFirm.profit 0 = 8 := smallFirm_zero smallFirm.elas
  rw [hp] at r2
  rcases r4 with ⟨-, rfl⟩ | ⟨x, rfl, -, -, x4⟩
  · norm_num at r2
  · refine ⟨u, R, N, τ, e, x, k, γ', o', e', hτ, he, r1, by linarith, ?_⟩
    rw [abs_le] at x4
    linarith

/-- the same with elasticities uncertain by 1/8 -/
example : ∃ (u : ℝ) (R : Rounding u) (N : ℕ) (τ : ℝ) (e : Ell (Fl R)) (o : ProfitRbOracle (Fl R)) (x : Arr (Fl R)) (k : Nat) (γ' : Fl R)
    (o' : ProfitRbOracle (Fl R)) (e' : Ell (Fl R)), 0 < τ ∧ Ell.newWithScalar ⟨100⟩ (Arr.ofList [0, 0]) = .ok e ∧
    ProfitRbOracle.new ⟨10⟩ ⟨1⟩ ⟨3⟩ (Arr.ofList [⟨1 / 4⟩, ⟨1 / 4⟩]) (Arr.ofList [⟨1⟩, ⟨1⟩]) ⟨1 / 8⟩ ⟨1 / 8⟩ ⟨0⟩ ⟨0⟩ ⟨0⟩ = .ok o ∧
    cuttingPlaneOptim ProfitRbOracle.oracle Ell.space o e ⟨0⟩ ⟨N, ⟨τ⟩⟩ = .ok ((some x, k), γ', o', e') ∧
    7 ≤ γ'.val ∧ 6 ≤ (smallFirm.flWorstAt R (1 / 8) (1 / 8) (x.flVec 2)).profit (x.flVec 2) := by
  obtain ⟨N, hN⟩ := C115_robust_solved smallFirm_pos (e1 := 1 / 8) (e2 := 1 / 8) (by norm_num) (by norm_num) (by norm_num [smallFirm])
    (by norm_num [smallFirm]) (by norm_num [smallFirm]) 1 100 1 (((100 : ℝ) • (1 : Matrix (Fin 2) (Fin 2) ℝ)).det) 1 one_pos (by norm_num)
    (by simp) one_pos
  obtain ⟨u0, h0, τ, hτ, h⟩ := hN N
  obtain ⟨u, hu, R, hR⟩ := fine_int u0 h0
  obtain ⟨e, he, he1, he2, -, he3, he4, he5⟩ := disc_new_fl (R := R) ⟨100⟩
  obtain ⟨o, hn, ho⟩ := C95_robust_new (R := R) (price := ⟨10⟩) (scale := ⟨1⟩) (limit := ⟨3⟩) (e1 := ⟨1 / 8⟩) (e2 := ⟨1 / 8⟩) (e3 := ⟨0⟩)
    (e4 := ⟨0⟩) (e5 := ⟨0⟩) (fl_pair_shape (⟨1 / 4⟩ : Fl R) ⟨1 / 4⟩) (fl_pair_shape (⟨1⟩ : Fl R) ⟨1⟩)
  have ho' : o.FlFor smallFirm (1 / 8) (1 / 8) := by
    have r10 : R.rnd 10 = 10 := by simpa [Rounding.Rep] using hR 10 (by norm_num)
    have r3 : R.rnd 3 = 3 := by simpa [Rounding.Rep] using hR 3 (by norm_num)
    have r1 : R.rnd 1 = 1 := by simpa [Rounding.Rep] using hR 1 (by norm_num)
    have e1 : (Arr.ofList [(⟨1 / 4⟩ : Fl R), ⟨1 / 4⟩]).flVec 2 = ![1 / 4, 1 / 4] := by funext i; fin_cases i <;> rfl
    have e2 : (fun i => R.rnd ((Arr.ofList [(⟨1⟩ : Fl R), ⟨1⟩]).flVec 2 i + (⟨0⟩ : Fl R).val)) = ![1, 1] := by
      funext i
      fin_cases i
      · show R.rnd (1 + 0) = 1
        rw [add_zero, r1]
      · show R.rnd (1 + 0) = 1
        rw [add_zero, r1]
    rw [e1, e2] at ho
    simp only [sub_zero, r10, r3] at ho
    exact ho
  obtain ⟨xb, k, γ', o', e', r1, r2, -, r4⟩ := h u hu R o 0 8 e ⟨0⟩ ⟨N, ⟨τ⟩⟩ ho' he1 he2 (by rw [he3]) (by rw [he4]; exact PosDef.one)
    (by rw [he4]; intro i j; fin_cases i <;> fin_cases j <;> simp) (by rw [he4]) (by simp [norm2]) (disc_unit_ball he4 he5)
    (by show Real.exp 0 ≤ 3; rw [Real.exp_zero]; norm_num) (fun a _ _ => (smallFirm_zero a).ge) le_rfl le_rfl le_rfl le_rfl
  rcases r4 with ⟨-, rfl⟩ | ⟨x, rfl, -, -, x4⟩
  · norm_num at r2
  · refine ⟨u, R, N, τ, e, o, x, k, γ', o', e', hτ, he, hn, r1, by linarith, ?_⟩
    rw [abs_le] at x4
    linarith

end Ellalgo

import Verif.Lib.CgHigh
import Verif.Lib.PowerSettle
import Verif.Spec.PowerIter
import Mathlib.Data.Set.Finite.List

/-! The power sequences in rounded arithmetic stay close to the exact ones, uniformly over a class of matrices and starts. -/

namespace Ellalgo
open Matrix
variable {κ : Type} {K : ℝ → Set κ} {c c' : ∀ u, Rounding u → κ → ℝ} {e e' : κ → ℝ} {n : Nat}

theorem Appr.abs (h : Appr K c e) : Appr K (fun u R k => |c u R k|) fun k => |e k| := by
  obtain ⟨M, hM0, hM⟩ := h.bdd
  refine ⟨⟨M, hM0, fun u hu k hk => by rw [abs_abs]; exact hM u hu k hk⟩, fun ε hε => ?_⟩
  obtain ⟨u1, p1, h1⟩ := h.close ε hε
  exact ⟨u1, p1, fun u hu R k hk => (abs_abs_sub_abs_le _ _).trans (h1 u hu R k hk)⟩

/-- finitely many smallness conditions on the unit -/
theorem small_units_finite {ι : Type} {S : Set ι} (hS : S.Finite) {P : ι → ℝ → Prop} (h : ∀ j ∈ S, ∃ u0 > 0, ∀ u ≤ u0, P j u) :
    ∃ u0 > 0, ∀ u ≤ u0, ∀ j ∈ S, P j u := by
  induction S, hS using Set.Finite.induction_on with
  | empty => exact ⟨1, one_pos, fun _ _ _ h => h.elim⟩
  | @insert a S _ _ ih =>
    obtain ⟨u0, h1, h2⟩ := ih fun j hj => h j (Set.mem_insert_of_mem _ hj)
    obtain ⟨u1, h3, h4⟩ := h a (Set.mem_insert _ _)
    refine ⟨min u0 u1, lt_min h1 h3, fun u hu j hj => ?_⟩
    rcases hj with rfl | hj
    · exact h4 u (hu.trans (min_le_right _ _))
    · exact h2 u (hu.trans (min_le_left _ _)) j hj

/-- how a vector is scaled -/
inductive PMode where
  | raw
  | two
  | one

instance : Finite PMode := Finite.of_injective (fun m : PMode => match m with | .raw => (0 : Fin 3) | .two => 1 | .one => 2) (by
  intro a b h; cases a <;> cases b <;> simp_all)

section
variable {α : Type} [Scalar α]

def PMode.app (n : Nat) (m : PMode) (v : Nat → α) : Nat → α :=
  match m with
  | .raw => v
  | .two => unitV n v
  | .one => unit1V n v

/-- scale the start, then multiply and scale, the last operation first in the list -/
def pathV (n : Nat) (A : Nat → Nat → α) (x : Nat → α) (m0 : PMode) : List PMode → Nat → α
  | [] => m0.app n x
  | m :: σ => m.app n (mulV n A (pathV n A x m0 σ))

theorem powSeq_path (A : Nat → Nat → α) (x : Nat → α) (k : Nat) : powSeq n A x k = pathV n A x .two (List.replicate k .two) := by
  induction k with
  | zero => rfl
  | succ k ih => rw [powSeq, ih]; rfl

theorem pow1Seq_path (A : Nat → Nat → α) (x : Nat → α) (k : Nat) : pow1Seq n A x k = pathV n A x .one (List.replicate k .one) := by
  induction k with
  | zero => rfl
  | succ k ih => rw [pow1Seq, ih]; rfl

/-- the third sequence follows some path -/
theorem pow3Seq_path (A : Nat → Nat → α) (x : Nat → α) (k : Nat) : ∃ σ : List PMode, σ.length = k ∧
    pow3Seq n A x k = pathV n A x .raw σ ∧ (pow3Val n A x k = rayV n A (pathV n A x .raw σ) ∧ (∃ τ, σ = .two :: τ) ∨
      pow3Val n A x k = rayV n A (pathV n A x .raw σ) / dotV n (pathV n A x .raw σ) (pathV n A x .raw σ)) := by
  induction k with
  | zero => exact ⟨[], rfl, rfl, Or.inr rfl⟩
  | succ k ih =>
    obtain ⟨σ, h1, h2, -⟩ := ih
    cases hb : bigV n (mulV n A (pow3Seq n A x k)) with
    | true =>
      have e : pow3Seq n A x (k + 1) = pathV n A x .raw (.two :: σ) := by rw [pow3Seq, hb, h2]; rfl
      refine ⟨.two :: σ, by simp [h1], e, Or.inl ⟨?_, σ, rfl⟩⟩
      rw [← e, pow3Val, hb]; rfl
    | false =>
      have e : pow3Seq n A x (k + 1) = pathV n A x .raw (.raw :: σ) := by rw [pow3Seq, hb, h2]; rfl
      refine ⟨.raw :: σ, by simp [h1], e, Or.inr ?_⟩
      rw [← e, pow3Val, hb]; rfl
end

/-- a matrix with an eigenvector, its eigenvalue, and a start -/
structure PowData where
  A : Nat → Nat → ℝ
  x : Nat → ℝ
  u : Nat → ℝ
  mu : ℝ

def PowData.mat (n : Nat) (k : PowData) : Matrix (Fin n) (Fin n) ℝ := fun i j => k.A i j
def finV (n : Nat) (v : Nat → ℝ) : Fin n → ℝ := fun i => v i

/-- the component along the eigenvector -/
noncomputable def PowData.comp (n : Nat) (k : PowData) (v : Nat → ℝ) : ℝ := finV n k.u ⬝ᵥ finV n v

noncomputable def PowData.exact (n : Nat) (k : PowData) (m0 : PMode) (σ : List PMode) : Nat → ℝ := pathV n k.A k.x m0 σ
noncomputable def PowData.fl (n : Nat) (k : PowData) {u : ℝ} (R : Rounding u) (m0 : PMode) (σ : List PMode) : Nat → Fl R :=
  pathV n (fun i j => ⟨k.A i j⟩) (fun i => ⟨k.x i⟩) m0 σ

/-- entries up to `M`, a dominant eigenvalue of size at least `lo` with ratio `rho`, and a start with component at least `s` along it -/
def powClass (n : Nat) (lo M s rho : ℝ) : ℝ → Set PowData := fun _ =>
  {k | (∀ i < n, ∀ l < n, |k.A i l| ≤ M) ∧ (∀ i < n, |k.x i| ≤ M) ∧ Dominant (k.mat n) (finV n k.u) k.mu rho ∧ lo ≤ |k.mu| ∧
    s ≤ |k.comp n k.x|}

variable {lo M s rho : ℝ}

theorem finV_mulV (k : PowData) (v : Nat → ℝ) : finV n (mulV n k.A v) = k.mat n *ᵥ finV n v := by
  funext i
  show mulV n k.A v i = _
  rw [mulV, sumTo_fin]; rfl

theorem finV_unit2 (v : Nat → ℝ) : finV n (unitV n v) = unit2 (finV n v) := by
  funext i
  show v i * (1 / √(dotV n v v)) = _
  rw [dotV_real, one_div, mul_comm]; rfl

theorem norm1V_real (v : Nat → ℝ) : norm1V n v = norm1 (finV n v) := by rw [norm1V, sumTo_fin]; rfl

theorem finV_unit1 (v : Nat → ℝ) : finV n (unit1V n v) = unit1 (finV n v) := by
  funext i
  show v i * (1 / norm1V n v) = _
  rw [norm1V_real, one_div, mul_comm]; rfl

/-- `f` computes `f'`, which keeps a component along the eigenvector -/
structure PowClose (n : Nat) (lo M s rho : ℝ) (f : ∀ u (R : Rounding u), PowData → Nat → Fl R) (f' : PowData → Nat → ℝ) : Prop where
  ap : ∀ i < n, Appr (powClass n lo M s rho) (fun u R k => (f u R k i).val) fun k => f' k i
  low : ∃ L > 0, ∀ u, ∀ k ∈ powClass n lo M s rho u, L ≤ |k.comp n (f' k)|

variable {f : ∀ u (R : Rounding u), PowData → Nat → Fl R} {f' : PowData → Nat → ℝ}

theorem comp_le_norm2 {u : ℝ} {k : PowData} (hk : k ∈ powClass n lo M s rho u) (v : Nat → ℝ) :
    |k.comp n v| ≤ √(dotV n v v) := by
  have h1 := dot_le_norm2 (finV n k.u) (finV n v)
  have h2 : norm2 (finV n k.u) = 1 := by rw [norm2, hk.2.2.1.unit, Real.sqrt_one]
  rw [h2, one_mul] at h1
  rw [dotV_real]
  exact h1

theorem unit_coord {u : ℝ} {k : PowData} (hk : k ∈ powClass n lo M s rho u) (i : Fin n) : |finV n k.u i| ≤ 1 := by
  have h1 := hk.2.2.1.unit
  have h2 := Finset.single_le_sum (f := fun i => finV n k.u i * finV n k.u i) (fun j _ => mul_self_nonneg _) (Finset.mem_univ i)
  have h3 : finV n k.u i * finV n k.u i ≤ 1 := h2.trans h1.le
  rw [_root_.abs_le]
  constructor <;> nlinarith

theorem comp_le_norm1 {u : ℝ} {k : PowData} (hk : k ∈ powClass n lo M s rho u) (v : Nat → ℝ) :
    |k.comp n v| ≤ norm1V n v := by
  rw [norm1V_real]
  show |∑ i, finV n k.u i * finV n v i| ≤ ∑ i, |finV n v i|
  refine (Finset.abs_sum_le_sum_abs _ _).trans (Finset.sum_le_sum fun i _ => ?_)
  rw [abs_mul]
  have := mul_le_mul_of_nonneg_right (unit_coord hk i) (abs_nonneg (finV n v i))
  linarith

theorem comp_over (k : PowData) (v : Nat → ℝ) (a : ℝ) : k.comp n (overV v a) = k.comp n v / a := by
  have : finV n (overV v a) = (1 / a) • finV n v := by funext i; exact mul_comm _ _
  rw [PowData.comp, this, dotProduct_smul, smul_eq_mul, mul_comm, mul_one_div]; rfl

theorem PowClose.dot (h : PowClose n lo M s rho f f') :
    Appr (powClass n lo M s rho) (fun u R k => (dotV n (f u R k) (f u R k)).val) fun k => dotV n (f' k) (f' k) :=
  Appr.dotV h.ap h.ap

theorem dotV_self_nonneg (v : Nat → ℝ) : 0 ≤ dotV n v v := by
  rw [dotV_real]; exact Finset.sum_nonneg fun i _ => mul_self_nonneg _

theorem PowClose.nrm1 (h : PowClose n lo M s rho f f') :
    Appr (powClass n lo M s rho) (fun u R k => (norm1V n (f u R k)).val) fun k => norm1V n (f' k) :=
  Appr.sumFl fun j hj => (h.ap j hj).abs

/-- dividing by a norm that is not small -/
theorem PowClose.over (h : PowClose n lo M s rho f f') {g : ∀ u (R : Rounding u), PowData → Fl R} {g' : PowData → ℝ}
    (hg : Appr (powClass n lo M s rho) (fun u R k => (g u R k).val) g')
    (hlow : ∀ u, ∀ k ∈ powClass n lo M s rho u, |k.comp n (f' k)| ≤ g' k) :
    PowClose n lo M s rho (fun u R k => overV (f u R k) (g u R k)) fun k => overV (f' k) (g' k) := by
  obtain ⟨L, hL, hl⟩ := h.low
  refine ⟨fun i hi => ((h.ap i hi).mul (hg.inv hL fun u _ k hk => (hl u k hk).trans (hlow u k hk)).rnd).rnd, ?_⟩
  obtain ⟨B, hB0, hB⟩ := hg.bdd
  refine ⟨L / (B + 1), by positivity, fun u k hk => ?_⟩
  have h1 := hl u k hk
  have h2 := h1.trans (hlow u k hk)
  have h3 := (le_abs_self _).trans (hB 0 le_rfl k hk)
  rw [comp_over, abs_div, abs_of_pos (hL.trans_le h2)]
  exact div_le_div₀ (hL.le.trans h1) h1 (hL.trans_le h2) (by linarith)

theorem PowClose.unitV (h : PowClose n lo M s rho f f') :
    PowClose n lo M s rho (fun u R k => Ellalgo.unitV n (f u R k)) fun k => Ellalgo.unitV n (f' k) :=
  h.over (g := fun u R k => Scalar.sqrt (dotV n (f u R k) (f u R k))) (h.dot.sqrt fun _ _ _ _ => dotV_self_nonneg _).rnd
    fun _ _ hk => comp_le_norm2 hk _

theorem PowClose.app (h : PowClose n lo M s rho f f') (m : PMode) :
    PowClose n lo M s rho (fun u R k => m.app n (f u R k)) fun k => m.app n (f' k) := by
  cases m with
  | raw => exact h
  | two => exact h.unitV
  | one => exact h.over (g := fun u R k => norm1V n (f u R k)) h.nrm1 fun _ _ hk => comp_le_norm1 hk _

theorem appr_entry {i l : Nat} (hi : i < n) (hl : l < n) :
    Appr (powClass n lo M s rho) (fun _ _ k => k.A i l) fun k => k.A i l := Appr.self M fun _ _ _ hk => hk.1 i hi l hl

theorem PowClose.mulA (h : PowClose n lo M s rho f f') {i : Nat} (hi : i < n) :
    Appr (powClass n lo M s rho) (fun u R k => (mulV n (fun i j => (⟨k.A i j⟩ : Fl R)) (f u R k) i).val) fun k => mulV n k.A (f' k) i :=
  Appr.sumFl fun _ hl => ((appr_entry hi hl).mul (h.ap _ hl)).rnd

theorem comp_mulV {u : ℝ} {k : PowData} (hk : k ∈ powClass n lo M s rho u) (v : Nat → ℝ) :
    k.comp n (mulV n k.A v) = k.mu * k.comp n v := by
  rw [PowData.comp, finV_mulV, sym_dot hk.2.2.1.symm, hk.2.2.1.eig, dotProduct_smul, smul_eq_mul, dotProduct_comm]; rfl

theorem PowClose.mulV (hlo : 0 < lo) (h : PowClose n lo M s rho f f') :
    PowClose n lo M s rho (fun u R k => Ellalgo.mulV n (fun i j => (⟨k.A i j⟩ : Fl R)) (f u R k)) fun k => Ellalgo.mulV n k.A (f' k) := by
  refine ⟨fun i hi => h.mulA hi, ?_⟩
  obtain ⟨L, hL, hl⟩ := h.low
  refine ⟨lo * L, by positivity, fun u k hk => ?_⟩
  rw [comp_mulV hk, abs_mul]
  exact mul_le_mul hk.2.2.2.1 (hl u k hk) hL.le (abs_nonneg _)

/-- all sequences are close to the exact ones -/
theorem path_close (hlo : 0 < lo) (hs : 0 < s) (m0 : PMode) (σ : List PMode) :
    PowClose n lo M s rho (fun _ R k => k.fl n R m0 σ) fun k => k.exact n m0 σ := by
  induction σ with
  | nil =>
    have h : PowClose n lo M s rho (fun _ R k i => (⟨k.x i⟩ : Fl R)) fun k => k.x :=
      ⟨fun i hi => Appr.self M fun _ _ _ hk => hk.2.1 i hi, s, hs, fun _ k hk => hk.2.2.2.2⟩
    exact h.app m0
  | cons m σ ih => exact (ih.mulV hlo).app m

theorem PowClose.ray (h : PowClose n lo M s rho f f') :
    Appr (powClass n lo M s rho) (fun u R k => (rayV n (fun i j => (⟨k.A i j⟩ : Fl R)) (f u R k)).val) fun k => rayV n k.A (f' k) :=
  Appr.dotV h.ap fun _ hi => h.mulA hi

theorem PowClose.quot (h : PowClose n lo M s rho f f') :
    Appr (powClass n lo M s rho) (fun u R k => (rayV n (fun i j => (⟨k.A i j⟩ : Fl R)) (f u R k) / dotV n (f u R k) (f u R k)).val)
      fun k => rayV n k.A (f' k) / dotV n (f' k) (f' k) := by
  obtain ⟨L, hL, hl⟩ := h.low
  refine (h.ray.div h.dot (m := L ^ 2) (by positivity) fun u _ k hk => ?_).rnd
  have h1 := (hl u k hk).trans (comp_le_norm2 hk _)
  have h2 := pow_le_pow_left₀ hL.le h1 2
  rwa [Real.sq_sqrt (dotV_self_nonneg _)] at h2

/-- the squared component of the computed vector along the eigenvector -/
theorem PowClose.cosSq (h : PowClose n lo M s rho f f') :
    Appr (powClass n lo M s rho) (fun u R k => (k.comp n fun i => (f u R k i).val) ^ 2) fun k => k.comp n (f' k) ^ 2 := by
  have hu : ∀ i < n, Appr (powClass n lo M s rho) (fun _ _ k => k.u i) fun k => k.u i := fun i hi =>
    Appr.self 1 fun _ _ k hk => unit_coord hk ⟨i, hi⟩
  have h1 := Appr.sumEx (n := n) (f := fun u R k i => k.u i * (f u R k i).val) (g := fun k i => k.u i * f' k i)
    fun i hi => (hu i hi).mul (h.ap i hi)
  have h2 := h1.mul h1
  have e1 : ∀ (k : PowData) (v : Nat → ℝ), sumTo n (fun i => k.u i * v i) = k.comp n v := fun k v => sumTo_fin _ _
  simpa only [e1, ← pow_two] using h2

variable {g : ∀ u (R : Rounding u), PowData → Nat → Fl R} {g' : PowData → Nat → ℝ}

theorem PowClose.diff1 (h : PowClose n lo M s rho f f') (h' : PowClose n lo M s rho g g') :
    Appr (powClass n lo M s rho) (fun u R k => (norm1V n fun i => f u R k i - g u R k i).val) fun k =>
      norm1V n fun i => f' k i - g' k i :=
  Appr.sumFl fun j hj => ((h.ap j hj).sub (h'.ap j hj)).rnd.abs

theorem PowClose.sum1 (h : PowClose n lo M s rho f f') (h' : PowClose n lo M s rho g g') :
    Appr (powClass n lo M s rho) (fun u R k => (norm1V n fun i => f u R k i + g u R k i).val) fun k =>
      norm1V n fun i => f' k i + g' k i :=
  Appr.sumFl fun j hj => ((h.ap j hj).add (h'.ap j hj)).rnd.abs

/-- the exact member has the direction of a power applied to the start -/
theorem path_dir (hs : 0 < s) {u : ℝ} {k : PowData} (hk : k ∈ powClass n lo M s rho u) (m0 : PMode) (σ : List PMode) :
    Dir (k.mat n) (finV n k.x) σ.length (finV n (k.exact n m0 σ)) := by
  have hx : finV n k.u ⬝ᵥ finV n k.x ≠ 0 := by
    intro h0
    have := hk.2.2.2.2
    rw [PowData.comp, h0, abs_zero] at this
    linarith
  have key : ∀ (m : PMode) (j : Nat) (v : Nat → ℝ), Dir (k.mat n) (finV n k.x) j (finV n v) →
      Dir (k.mat n) (finV n k.x) j (finV n (m.app n v)) := by
    intro m j v hv
    have h0 := hk.2.2.1.pow_ne hx j
    cases m with
    | raw => exact hv
    | two =>
      show Dir _ _ _ (finV n (unitV n v))
      rw [finV_unit2, unit2_eq hv]
      exact dirAt_dir h0
    | one =>
      show Dir _ _ _ (finV n (unit1V n v))
      rw [finV_unit1, unit1_eq hv]
      exact dir1At_dir h0
  induction σ with
  | nil => exact key m0 0 k.x ⟨1, one_pos, by simp⟩
  | cons m σ ih =>
    refine key m _ _ ?_
    rw [finV_mulV]
    exact ih.mulVec

theorem rayV_real (k : PowData) (v : Nat → ℝ) : rayV n k.A v = finV n v ⬝ᵥ (k.mat n *ᵥ finV n v) := by
  rw [rayV, dotV_real, ← finV_mulV]; rfl

/-- the quotient of an exact member is the Rayleigh quotient of the power -/
theorem quot_exact (hs : 0 < s) {u : ℝ} {k : PowData} (hk : k ∈ powClass n lo M s rho u) (m0 : PMode) (σ : List PMode) :
    rayV n k.A (k.exact n m0 σ) / dotV n (k.exact n m0 σ) (k.exact n m0 σ) = rayAt (k.mat n) (finV n k.x) σ.length := by
  rw [rayV_real, dotV_real]
  exact rq_eq (path_dir hs hk m0 σ)

/-- scaled to Euclidean norm one, the exact member is the direction of the power -/
theorem unit_exact (hs : 0 < s) {u : ℝ} {k : PowData} (hk : k ∈ powClass n lo M s rho u) (m0 : PMode) (σ : List PMode) :
    finV n (unitV n (k.exact n m0 σ)) = dirAt (k.mat n) (finV n k.x) σ.length := by
  rw [finV_unit2]
  exact unit2_eq (path_dir hs hk m0 σ)

theorem ray_dir (hs : 0 < s) {u : ℝ} {k : PowData} (hk : k ∈ powClass n lo M s rho u) {v : Nat → ℝ} {j : Nat}
    (hv : finV n v = dirAt (k.mat n) (finV n k.x) j) : rayV n k.A v = rayAt (k.mat n) (finV n k.x) j := by
  have hx : finV n k.u ⬝ᵥ finV n k.x ≠ 0 := by
    intro h0
    have := hk.2.2.2.2
    rw [PowData.comp, h0, abs_zero] at this
    linarith
  have h0 := hk.2.2.1.pow_ne hx j
  rw [rayV_real, hv, ← rq_unit (dirAt_unit h0), rq_eq (dirAt_dir h0)]

end Ellalgo

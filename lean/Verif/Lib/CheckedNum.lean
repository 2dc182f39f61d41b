import Verif.Lib.CheckedArr
import Verif.Lib.PowerLemmas
import Verif.Spec.CheckedOracles

/-! Conjugate gradient and power iteration in checked arithmetic. -/

namespace Ellalgo

theorem Chk.abs_val (a : ℝ) : Scalar.abs (Chk.val a) = .val |a| := rfl

theorem foldl_sq_nonneg (l : List ℝ) : ∀ s : ℝ, 0 ≤ s → 0 ≤ (List.zipWith (· * ·) l l).foldl (· + ·) s := by
  induction l with
  | nil => intro s hs; exact hs
  | cons u l ih => intro s hs; exact ih _ (by nlinarith [mul_self_nonneg u])

theorem dot_self_nonneg {a : Arr ℝ} {d : ℝ} (h : a.dot a = .ok d) : 0 ≤ d := by
  simp only [Arr.dot, Res.bind_eq_ok] at h
  obtain ⟨_, -, _, -, h⟩ := h
  simp only [Res.ok.injEq] at h
  rw [← h]
  exact foldl_sq_nonneg _ 0 le_rfl

theorem foldl_sq_zero (l : List ℝ) : ∀ s : ℝ, 0 ≤ s → (List.zipWith (· * ·) l l).foldl (· + ·) s = 0 → s = 0 ∧ ∀ u ∈ l, u = 0 := by
  induction l with
  | nil => intro s _ h; exact ⟨h, by simp⟩
  | cons u l ih =>
    intro s hs h
    obtain ⟨h1, h2⟩ := ih (s + u * u) (by nlinarith [mul_self_nonneg u]) h
    have hu : u * u = 0 := by nlinarith [mul_self_nonneg u]
    refine ⟨by linarith, ?_⟩
    intro v hv
    rcases List.mem_cons.1 hv with rfl | hv
    · exact mul_self_eq_zero.1 hu
    · exact h2 v hv

/-- all entries are zero -/
def Arr.AllZero (a : Arr ℝ) : Prop := ∀ u ∈ a.data, u = 0

theorem dot_self_zero {a : Arr ℝ} (h : a.dot a = .ok 0) : a.AllZero := by
  simp only [Arr.dot, Res.bind_eq_ok] at h
  obtain ⟨_, -, _, -, h⟩ := h
  simp only [Res.ok.injEq] at h
  exact (foldl_sq_zero _ 0 le_rfl h).2

theorem foldl_zero_left (l m : List ℝ) (hl : ∀ u ∈ l, u = 0) : ∀ s : ℝ, (List.zipWith (· * ·) l m).foldl (· + ·) s = s := by
  induction l generalizing m with
  | nil => intro s; rfl
  | cons u l ih =>
    intro s
    cases m with
    | nil => rfl
    | cons v m =>
      simp only [List.zipWith_cons_cons, List.foldl_cons]
      rw [ih m (fun w hw => hl w (List.mem_cons_of_mem _ hw)), hl u List.mem_cons_self]
      ring

theorem dot_zero_left {a b : Arr ℝ} (ha : a.AllZero) {d : ℝ} (h : a.dot b = .ok d) : d = 0 := by
  simp only [Arr.dot, Res.bind_eq_ok] at h
  obtain ⟨_, -, _, -, h⟩ := h
  simp only [Res.ok.injEq] at h
  rw [← h]
  exact foldl_zero_left _ _ ha 0

theorem cgAxpy_lift (n : Nat) (s : ℝ) (d y : Arr ℝ) : cgAxpy n (.val s) d.lift y.lift = (cgAxpy n s d y).map Arr.lift := by
  unfold cgAxpy
  refine forRange_sim' (L := Arr.lift) fun i y => ?_
  exact Res.bind_sim (Arr.idx_lift y i) fun u _ => Res.bind_sim (Arr.idx_lift d i) fun v _ => Arr.setIdx_lift y i _

theorem cgAxmy_lift (n : Nat) (s : ℝ) (d y : Arr ℝ) : cgAxmy n (.val s) d.lift y.lift = (cgAxmy n s d y).map Arr.lift := by
  unfold cgAxmy
  refine forRange_sim' (L := Arr.lift) fun i y => ?_
  exact Res.bind_sim (Arr.idx_lift y i) fun u _ => Res.bind_sim (Arr.idx_lift d i) fun v _ => Arr.setIdx_lift y i _

theorem cgXpay_lift (n : Nat) (s : ℝ) (r p : Arr ℝ) : cgXpay n (.val s) r.lift p.lift = (cgXpay n s r p).map Arr.lift := by
  unfold cgXpay
  refine forRange_sim' (L := Arr.lift) fun i p => ?_
  exact Res.bind_sim (Arr.idx_lift r i) fun u _ => Res.bind_sim (Arr.idx_lift p i) fun v _ => Arr.setIdx_lift p i _

theorem cgXpay_zero {n : Nat} {r p p' : Arr ℝ} (hr : r.AllZero) (hn : p.data.length ≤ n) (h : cgXpay n 0 r p = .ok p') :
    p'.AllZero := by
  have gen : ∀ k lo (p q : Arr ℝ), (∀ j < lo, ∀ u, p.data[j]? = some u → u = 0) →
      forN k lo p (fun i (p : Arr ℝ) => do
        let ri ← r.idx i
        let pi ← p.idx i
        p.setIdx i (ri + 0 * pi)) = .ok q →
      q.data.length = p.data.length ∧ ∀ j < lo + k, ∀ u, q.data[j]? = some u → u = 0 := by
    intro k
    induction k with
    | zero =>
      intro lo p q hp h
      simp only [forN, Res.ok.injEq] at h
      subst h
      exact ⟨rfl, hp⟩
    | succ k ih =>
      intro lo p q hp h
      simp only [forN, Res.bind_eq_ok] at h
      obtain ⟨p1, ⟨ri, e1, pi, e2, e3⟩, h⟩ := h
      have hri : ri = 0 := by
        simp only [Arr.idx, Res.ofOption_eq_ok] at e1
        exact hr ri (List.mem_of_getElem? e1)
      have hl : p1.data.length = p.data.length := by
        simp only [Arr.setIdx] at e3
        split at e3
        · simp only [Res.ok.injEq] at e3
          rw [← e3]; simp
        · exact absurd e3 (by simp)
      obtain ⟨a1, a2⟩ := ih (lo + 1) p1 q (by
        intro j hj u hu
        by_cases hjl : j = lo
        · subst hjl
          have := Arr.idx_setIdx_eq e3
          simp only [Arr.idx, Res.ofOption_eq_ok] at this
          rw [hu, Option.some.injEq] at this
          rw [this, hri]; ring
        · have := Arr.idx_setIdx_ne e3 (Ne.symm hjl)
          simp only [Arr.idx] at this
          rw [hu] at this
          have h2 : p.data[j]? = some u := by
            cases hp' : p.data[j]? with
            | none => rw [hp'] at this; exact absurd this (by simp)
            | some w => rw [hp'] at this; simp at this; rw [this]
          exact hp j (by omega) u h2) h
      exact ⟨a1.trans hl, fun j hj => a2 j (by omega)⟩
  obtain ⟨h1, h2⟩ := gen (n - 0) 0 p p' (fun j hj => by omega) h
  intro u hu
  obtain ⟨j, hj, rfl⟩ := List.mem_iff_getElem.1 hu
  exact h2 j (by omega) _ (List.getElem?_eq_getElem hj)

theorem cgXpay_length {n : Nat} {s : ℝ} {r p p' : Arr ℝ} (h : cgXpay n s r p = .ok p') : p'.data.length = p.data.length := by
  have gen : ∀ k lo (p q : Arr ℝ),
      forN k lo p (fun i (p : Arr ℝ) => do
        let ri ← r.idx i
        let pi ← p.idx i
        p.setIdx i (ri + s * pi)) = .ok q → q.data.length = p.data.length := by
    intro k
    induction k with
    | zero =>
      intro lo p q h
      simp only [forN, Res.ok.injEq] at h
      rw [h]
    | succ k ih =>
      intro lo p q h
      simp only [forN, Res.bind_eq_ok] at h
      obtain ⟨p1, ⟨ri, -, pi, -, e3⟩, h⟩ := h
      rw [ih _ _ _ h]
      simp only [Arr.setIdx] at e3
      split at e3
      · simp only [Res.ok.injEq] at e3
        rw [← e3]; simp
      · exact absurd e3 (by simp)
  exact gen (n - 0) 0 p p' h

theorem cgLoop_lift (a : Arr ℝ) (n : Nat) (tol : ℝ) (k : Nat) : ∀ (x r p : Arr ℝ) (rr : ℝ), 0 ≤ rr → (rr = 0 → p.AllZero) →
    p.data.length ≤ n →
    cgLoop a.lift n (.val tol) k x.lift r.lift p.lift (.val rr) = (cgLoop a n tol k x r p rr).map liftCg := by
  induction k with
  | zero => intro x r p rr _ _ _; rfl
  | succ k ih =>
    intro x r p rr h0 hz hl
    unfold cgLoop
    refine Res.bind_sim (Arr.dotMv_lift a p) fun ap _ => ?_
    refine Res.bind_sim (Arr.dot_lift p ap) fun dAd hd => ?_
    simp only [Chk.zero_val, Chk.beq_val, Scalar.real_beq]
    by_cases hd0 : dAd = 0
    · simp only [hd0, decide_true, if_true]; rfl
    · simp only [hd0, decide_false, Bool.false_eq_true, if_false]
      have hrr : rr ≠ 0 := fun h => hd0 (dot_zero_left (hz h) hd)
      rw [Chk.div_val _ hd0]
      refine Res.bind_sim (cgAxpy_lift n _ p x) fun x1 _ => ?_
      refine Res.bind_sim (cgAxmy_lift n _ ap r) fun r1 _ => ?_
      refine Res.bind_sim (Arr.dot_lift r1 r1) fun rr1 hrr1 => ?_
      have hn := dot_self_nonneg hrr1
      rw [Chk.sqrt_val hn, Chk.lt_val]
      simp only [Scalar.real_lt, Scalar.real_sqrt]
      by_cases hc : √rr1 < tol
      · simp only [hc, decide_true, if_true]; rfl
      · simp only [hc, decide_false, Bool.false_eq_true, if_false]
        rw [Chk.div_val _ hrr]
        refine Res.bind_sim (cgXpay_lift n _ r1 p) fun p1 hp1 => ?_
        refine ih x1 r1 p1 rr1 hn ?_ (by rw [cgXpay_length hp1]; exact hl)
        intro h
        subst h
        rw [zero_div] at hp1
        exact cgXpay_zero (dot_self_zero hrr1) hl hp1

theorem cg_lift (a b : Arr ℝ) (x0 : Option (Arr ℝ)) (tol : ℝ) (maxIter : Nat) :
    conjugateGradient a.lift b.lift (x0.map Arr.lift) (.val tol) maxIter = (conjugateGradient a b x0 tol maxIter).map liftCg := by
  unfold conjugateGradient
  have hx : (x0.map Arr.lift).getD (Arr.new b.lift.len) = (x0.getD (Arr.new b.len)).lift := by
    rw [Arr.lift_len, Arr.new_lift]
    cases x0 <;> rfl
  simp only [hx]
  refine Res.bind_sim (Arr.dotMv_lift a _) fun ax _ => ?_
  refine Res.bind_sim (Arr.sub_lift b ax) fun r hr => ?_
  refine Res.bind_sim (Arr.dot_lift r r) fun rr hrr => ?_
  rw [Arr.lift_len]
  refine cgLoop_lift a b.len tol maxIter _ r r rr (dot_self_nonneg hrr) (fun h => by subst h; exact dot_self_zero hrr) ?_
  simp only [Arr.sub, Arr.zipWith, Res.bind_eq_ok] at hr
  obtain ⟨_, -, hr⟩ := hr
  simp only [Res.ok.injEq] at hr
  rw [← hr]
  simp only [List.length_zipWith, Arr.len]
  omega

/-! ### power iteration -/

theorem normL1_lift (x : Arr ℝ) : normL1 x.lift = .val (normL1 x) := by
  simp only [normL1, Arr.lift, List.map_map]
  have : (Scalar.abs ∘ Chk.val) = Chk.val ∘ (Scalar.abs : ℝ → ℝ) := rfl
  rw [this, ← List.map_map]
  exact Arr.foldl_val _ 0

theorem normalize2_lift {x : Arr ℝ} (hx : ¬ x.AllZero) : normalize2 x.lift = (normalize2 x).map Arr.lift := by
  unfold normalize2
  refine Res.bind_sim (Arr.dot_lift x x) fun d hd => ?_
  have h0 := dot_self_nonneg hd
  have h1 : d ≠ 0 := fun h => hx (dot_self_zero (h ▸ hd))
  rw [Chk.sqrt_val h0, Arr.divScalar_lift x (Real.sqrt_ne_zero'.2 (lt_of_le_of_ne h0 (Ne.symm h1)))]
  rfl

theorem rayleigh_lift (a x : Arr ℝ) : rayleigh a.lift x.lift = (rayleigh a x).map .val :=
  Res.bind_sim (Arr.dotMv_lift a x) fun ax _ => Arr.dot_lift x ax

theorem close_lift (tol : ℝ) (x x1 : Arr ℝ) : closeUpToSign (.val tol) x.lift x1.lift = (closeUpToSign tol x x1).map id := by
  unfold closeUpToSign
  refine Res.bind_sim (Arr.sub_lift x x1) fun d _ => ?_
  rw [normL1_lift, Chk.le_val]
  split
  · rfl
  · refine Res.bind_sim (Arr.add_lift x x1) fun s _ => ?_
    rw [normL1_lift, Chk.le_val]
    rfl

theorem foldl_abs_zero (l : List ℝ) : ∀ s : ℝ, 0 ≤ s → (l.map (Scalar.abs : ℝ → ℝ)).foldl (· + ·) s = 0 → s = 0 ∧ ∀ u ∈ l, u = 0 := by
  induction l with
  | nil => intro s _ h; exact ⟨h, by simp⟩
  | cons u l ih =>
    intro s hs h
    have ha : 0 ≤ (Scalar.abs u : ℝ) := abs_nonneg u
    obtain ⟨h1, h2⟩ := ih (s + Scalar.abs u) (by linarith) h
    have hu : |u| = 0 := by
      have : (Scalar.abs u : ℝ) = 0 := by linarith
      exact this
    refine ⟨by linarith, ?_⟩
    intro v hv
    rcases List.mem_cons.1 hv with rfl | hv
    · exact abs_eq_zero.1 hu
    · exact h2 v hv

theorem normL1_ne {x : Arr ℝ} (hx : ¬ x.AllZero) : normL1 x ≠ 0 := fun h => hx (foldl_abs_zero _ 0 le_rfl h).2

theorem divScalar_ne {x : Arr ℝ} (hx : ¬ x.AllZero) {s : ℝ} (hs : s ≠ 0) : ¬ (x.divScalar s).AllZero := by
  intro h
  apply hx
  intro u hu
  have := h (u * (1 / s)) (List.mem_map.2 ⟨u, hu, rfl⟩)
  rcases mul_eq_zero.1 this with h | h
  · exact h
  · exact absurd h (one_div_ne_zero hs)

theorem normalize2_ne {x x1 : Arr ℝ} (hx : ¬ x.AllZero) (h : normalize2 x = .ok x1) : ¬ x1.AllZero := by
  simp only [normalize2, Res.bind_eq_ok] at h
  obtain ⟨d, hd, h⟩ := h
  simp only [Res.ok.injEq] at h
  subst h
  have h0 := dot_self_nonneg hd
  have h1 : d ≠ 0 := fun h => hx (dot_self_zero (h ▸ hd))
  exact divScalar_ne hx (Real.sqrt_ne_zero'.2 (lt_of_le_of_ne h0 (Ne.symm h1)))

/-- `a` maps no nonzero vector to zero -/
def Arr.Injective (a : Arr ℝ) : Prop := ∀ x y, a.dotMv x = .ok y → ¬ x.AllZero → ¬ y.AllZero

theorem powerLoop_lift {a : Arr ℝ} (ha : a.Injective) (opts : Options ℝ) (k : Nat) : ∀ (n : Nat) (x : Arr ℝ), ¬ x.AllZero →
    powerLoop a.lift opts.lift k n x.lift = (powerLoop a opts k n x).map liftPow := by
  induction k with
  | zero => intro n x _; exact Res.bind_sim (rayleigh_lift a x) fun l _ => rfl
  | succ k ih =>
    intro n x hx
    unfold powerLoop
    refine Res.bind_sim (Arr.dotMv_lift a x) fun y hy => ?_
    have hy0 := ha x y hy hx
    refine Res.bind_sim (normalize2_lift hy0) fun z hz => ?_
    refine Res.bind_sim (close_lift opts.tolerance z x) fun st _ => ?_
    cases st
    · exact ih (n + 1) z (normalize2_ne hy0 hz)
    · exact Res.bind_sim (rayleigh_lift a z) fun l _ => rfl

theorem power_lift {a x : Arr ℝ} (ha : a.Injective) (hx : ¬ x.AllZero) (opts : Options ℝ) :
    powerIteration a.lift x.lift opts.lift = (powerIteration a x opts).map liftPow :=
  Res.bind_sim (normalize2_lift hx) fun z hz => powerLoop_lift ha opts _ 0 z (normalize2_ne hx hz)

theorem power4Loop_lift {a : Arr ℝ} (ha : a.Injective) (opts : Options ℝ) (k : Nat) : ∀ (n : Nat) (x : Arr ℝ), ¬ x.AllZero →
    power4Loop a.lift opts.lift k n x.lift = (power4Loop a opts k n x).map liftPow := by
  induction k with
  | zero =>
    intro n x hx
    exact Res.bind_sim (normalize2_lift hx) fun z _ => Res.bind_sim (rayleigh_lift a z) fun l _ => rfl
  | succ k ih =>
    intro n x hx
    unfold power4Loop
    refine Res.bind_sim (Arr.dotMv_lift a x) fun y hy => ?_
    have hy0 := ha x y hy hx
    have hz0 := divScalar_ne hy0 (normL1_ne hy0)
    simp only [normL1_lift, Arr.divScalar_lift y (normL1_ne hy0)]
    refine Res.bind_sim (close_lift opts.tolerance _ x) fun st _ => ?_
    cases st
    · exact ih (n + 1) _ hz0
    · exact Res.bind_sim (normalize2_lift hz0) fun z _ => Res.bind_sim (rayleigh_lift a z) fun l _ => rfl

theorem power4_lift {a x : Arr ℝ} (ha : a.Injective) (hx : ¬ x.AllZero) (opts : Options ℝ) :
    powerIteration4 a.lift x.lift opts.lift = (powerIteration4 a x opts).map liftPow := by
  unfold powerIteration4
  rw [normL1_lift, Arr.divScalar_lift x (normL1_ne hx)]
  exact power4Loop_lift ha opts _ 0 _ (divScalar_ne hx (normL1_ne hx))

theorem power2Loop_lift {a : Arr ℝ} (ha : a.Injective) (opts : Options ℝ) (k : Nat) : ∀ (n : Nat) (x y : Arr ℝ) (l : ℝ),
    ¬ y.AllZero →
    power2Loop a.lift opts.lift k n x.lift y.lift (.val l) = (power2Loop a opts k n x y l).map liftPow := by
  induction k with
  | zero => intro n x y l _; rfl
  | succ k ih =>
    intro n x y l hy
    unfold power2Loop
    refine Res.bind_sim (normalize2_lift hy) fun z hz => ?_
    have hz0 := normalize2_ne hy hz
    refine Res.bind_sim (Arr.dotMv_lift a z) fun y1 hy1 => ?_
    refine Res.bind_sim (Arr.dot_lift z y1) fun l1 _ => ?_
    exact ite_sim rfl (fun _ => rfl) fun _ => ih (n + 1) z y1 l1 (ha z y1 hy1 hz0)

theorem power2_lift {a x : Arr ℝ} (ha : a.Injective) (hx : ¬ x.AllZero) (opts : Options ℝ) :
    powerIteration2 a.lift x.lift opts.lift = (powerIteration2 a x opts).map liftPow := by
  refine Res.bind_sim (normalize2_lift hx) fun z hz => ?_
  refine Res.bind_sim (Arr.dotMv_lift a z) fun y hy => ?_
  exact Res.bind_sim (Arr.dot_lift z y) fun l _ => power2Loop_lift ha opts _ 0 z y l (ha z y hy (normalize2_ne hx hz))

theorem power3Loop_lift {a : Arr ℝ} (ha : a.Injective) (opts : Options ℝ) (k : Nat) : ∀ (n : Nat) (x y : Arr ℝ) (l : ℝ),
    ¬ y.AllZero →
    power3Loop a.lift opts.lift k n x.lift y.lift (.val l) = (power3Loop a opts k n x y l).map liftPow := by
  induction k with
  | zero => intro n x y l _; rfl
  | succ k ih =>
    intro n x y l hy
    unfold power3Loop
    refine Res.bind_sim (Arr.dot_lift y y) fun d hd => ?_
    have hd0 : d ≠ 0 := fun h => hy (dot_self_zero (h ▸ hd))
    rw [show (nat (10 ^ 150) : Chk) = .val (nat (10 ^ 150) : ℝ) from rfl, Chk.ge_val]
    split
    · refine Res.bind_sim (normalize2_lift hy) fun z hz => ?_
      refine Res.bind_sim (Arr.dotMv_lift a z) fun y1 hy1 => ?_
      refine Res.bind_sim (Arr.dot_lift z y1) fun l1 _ => ?_
      exact ite_sim rfl (fun _ => rfl) fun _ => ih (n + 1) z y1 l1 (ha z y1 hy1 (normalize2_ne hy hz))
    · refine Res.bind_sim (Arr.dotMv_lift a y) fun y1 hy1 => ?_
      refine Res.bind_sim (Arr.dot_lift y y1) fun xn _ => ?_
      simp only [Chk.div_val _ hd0]
      exact ite_sim rfl (fun _ => Res.bind_sim (normalize2_lift hy) fun z _ => rfl) fun _ => ih (n + 1) y y1 _ (ha y y1 hy1 hy)

theorem power3_lift {a x : Arr ℝ} (ha : a.Injective) (hx : ¬ x.AllZero) (opts : Options ℝ) :
    powerIteration3 a.lift x.lift opts.lift = (powerIteration3 a x opts).map liftPow := by
  refine Res.bind_sim (Arr.dotMv_lift a x) fun y hy => ?_
  refine Res.bind_sim (Arr.dot_lift x x) fun d hd => ?_
  have hd0 : d ≠ 0 := fun h => hx (dot_self_zero (h ▸ hd))
  refine Res.bind_sim (Arr.dot_lift x y) fun xn _ => ?_
  rw [Chk.div_val _ hd0]
  exact power3Loop_lift ha opts _ 0 x y _ (ha x y hy hx)

end Ellalgo

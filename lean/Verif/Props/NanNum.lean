import Verif.Lib.NanLemmas
import Verif.Model.ConjGrad
import Verif.Model.PowerIter

/-! C81: what a NaN does to the conjugate gradient method, the power iterations and the binary search. -/

namespace Ellalgo
variable {α : Type} [Scalar α] {N : α → Prop}

section vectors
variable (hN : NanLaws N) {n : Nat}
include hN

theorem dot_nan {x y : Arr α} {v w : Nat → α} (hx : IsVec x n v) (hy : IsVec y n w)
    (h : (∃ i < n, N (v i)) ∨ ∃ i < n, N (w i)) : ∃ d, x.dot y = .ok d ∧ N d := by
  refine ⟨_, dot_spec hx hy, ?_⟩
  rcases h with ⟨i, hi, h⟩ | ⟨i, hi, h⟩
  · exact hN.sumTo hi (hN.mul_left h _)
  · exact hN.sumTo hi (hN.mul_right _ h)

theorem dotMv_nan {a x : Arr α} {m : Nat → Nat → α} {v : Nat → α} (ha : IsMat a n n m) (hx : IsVec x n v)
    (h : (∃ i < n, ∃ j < n, N (m i j)) ∨ ∃ i < n, N (v i)) : ∃ y w, a.dotMv x = .ok y ∧ IsVec y n w ∧ ∃ i < n, N (w i) := by
  have hn : 0 < n := by rcases h with ⟨i, hi, -⟩ | ⟨i, hi, -⟩ <;> omega
  obtain ⟨y, h1, h2⟩ := dotMv_spec ha hx hn
  refine ⟨y, _, h1, h2, ?_⟩
  rcases h with ⟨i, hi, j, hj, h⟩ | ⟨j, hj, h⟩
  · exact ⟨i, hi, hN.sumTo hj (hN.mul_left h _)⟩
  · exact ⟨0, hn, hN.sumTo hj (hN.mul_right _ h)⟩

theorem normL1_nan {x : Arr α} {v : Nat → α} (hx : IsVec x n v) (h : ∃ i < n, N (v i)) : N (normL1 x) := by
  have key : ∀ (l : List α) (c : α), (N c ∨ ∃ y ∈ l, N y) → N ((l.map Scalar.abs).foldl (· + ·) c) := by
    intro l
    induction l with
    | nil => intro c h; simpa using h
    | cons y l ih =>
      intro c h
      simp only [List.map_cons, List.foldl_cons]
      refine ih _ ?_
      rcases h with h | ⟨z, hz, h⟩
      · exact Or.inl (hN.add_left h _)
      · rcases List.mem_cons.1 hz with rfl | hz
        · exact Or.inl (hN.add_right _ (hN.abs h))
        · exact Or.inr ⟨z, hz, h⟩
  exact key _ _ (Or.inr (hx.someNan.2 h))

theorem normalize2_nan {x : Arr α} {v : Nat → α} (hx : IsVec x n v) (h : ∃ i < n, N (v i)) :
    ∃ y w, normalize2 x = .ok y ∧ IsVec y n w ∧ ∀ i < n, N (w i) := by
  obtain ⟨d, h1, h2⟩ := dot_nan hN hx hx (Or.inl h)
  exact ⟨x.divScalar (Scalar.sqrt d), _, by rw [normalize2, h1]; rfl, hx.map _,
    fun i _ => hN.mul_right _ (hN.div_right _ (hN.sqrt h2))⟩

theorem close_nan (tol : α) {x y : Arr α} {v w : Nat → α} (hx : IsVec x n v) (hy : IsVec y n w)
    (h : ∃ i < n, N (v i)) : closeUpToSign tol x y = .ok false := by
  obtain ⟨i, hi, h⟩ := h
  obtain ⟨d, h1, h2⟩ := hx.zipWith hy (· - ·)
  obtain ⟨s, h3, h4⟩ := hx.zipWith hy (· + ·)
  simp only [closeUpToSign, Arr.sub, Arr.add, h1, h3, Res.ok_bind,
    hN.le_left (normL1_nan hN h2 ⟨i, hi, hN.sub_left h _⟩), hN.le_left (normL1_nan hN h4 ⟨i, hi, hN.add_left h _⟩)]
  rfl

theorem rayleigh_nan {a x : Arr α} {m : Nat → Nat → α} {v : Nat → α} (ha : IsMat a n n m) (hx : IsVec x n v)
    (h : (∃ i < n, ∃ j < n, N (m i j)) ∨ ∃ i < n, N (v i)) : ∃ l, rayleigh a x = .ok l ∧ N l := by
  obtain ⟨y, w, h1, h2, h3⟩ := dotMv_nan hN ha hx h
  obtain ⟨d, h4, h5⟩ := dot_nan hN hx h2 (Or.inr h3)
  exact ⟨d, by rw [rayleigh, h1]; exact h4, h5⟩

end vectors

section power
variable (hN : NanLaws N) {n : Nat} {a : Arr α} {m : Nat → Nat → α} (ha : IsMat a n n m) (opts : Options α)
include hN ha

theorem powerLoop_nan (k : Nat) : ∀ (i : Nat) (x : Arr α) (v : Nat → α), IsVec x n v →
    ((∃ i < n, ∃ j < n, N (m i j)) ∨ ∃ i < n, N (v i)) →
    ∃ l x', powerLoop a opts k i x = .ok ((l, opts.maxIters), x') ∧ N l := by
  induction k with
  | zero =>
    intro i x v hx h
    obtain ⟨l, h1, h2⟩ := rayleigh_nan hN ha hx h
    exact ⟨l, x, by simp only [powerLoop, h1, Res.ok_bind], h2⟩
  | succ k ih =>
    intro i x v hx h
    obtain ⟨y, w, h1, h2, h3⟩ := dotMv_nan hN ha hx h
    obtain ⟨z, u, h4, h5, h6⟩ := normalize2_nan hN h2 h3
    have h7 : ∃ i < n, N (u i) := by obtain ⟨i, hi, -⟩ := h3; exact ⟨i, hi, h6 i hi⟩
    obtain ⟨l, x', h8, h9⟩ := ih (i + 1) z u h5 (Or.inr h7)
    exact ⟨l, x', by simp only [powerLoop, h1, h4, close_nan hN _ h5 hx h7, Res.ok_bind, Bool.false_eq_true, if_false, h8], h9⟩

theorem power4Loop_nan (k : Nat) : ∀ (i : Nat) (x : Arr α) (v : Nat → α), IsVec x n v →
    ((∃ i < n, ∃ j < n, N (m i j)) ∨ ∃ i < n, N (v i)) →
    ∃ l x', power4Loop a opts k i x = .ok ((l, opts.maxIters), x') ∧ N l := by
  induction k with
  | zero =>
    intro i x v hx h
    have hz : ∃ z u, normalize2 x = .ok z ∧ IsVec z n u ∧ ((∃ i < n, ∃ j < n, N (m i j)) ∨ ∃ i < n, N (u i)) := by
      rcases h with h | h
      · exact ⟨_, _, by rw [normalize2, dot_spec hx hx]; rfl, hx.map _, Or.inl h⟩
      · obtain ⟨z, u, h4, h5, h6⟩ := normalize2_nan hN hx h
        obtain ⟨i, hi, -⟩ := h
        exact ⟨z, u, h4, h5, Or.inr ⟨i, hi, h6 i hi⟩⟩
    obtain ⟨z, u, h4, h5, h6⟩ := hz
    obtain ⟨l, h1, h2⟩ := rayleigh_nan hN ha h5 h6
    exact ⟨l, z, by simp only [power4Loop, h4, h1, Res.ok_bind], h2⟩
  | succ k ih =>
    intro i x v hx h
    obtain ⟨y, w, h1, h2, h3⟩ := dotMv_nan hN ha hx h
    have h5 : IsVec (y.divScalar (normL1 y)) n _ := h2.map _
    have h7 : ∃ i < n, N (w i * (1 / normL1 y)) := by
      obtain ⟨i, hi, -⟩ := id h3
      exact ⟨i, hi, hN.mul_right _ (hN.div_right _ (normL1_nan hN h2 h3))⟩
    obtain ⟨l, x', h8, h9⟩ := ih (i + 1) _ _ h5 (Or.inr h7)
    exact ⟨l, x', by simp only [power4Loop, h1, close_nan hN _ h5 hx h7, Res.ok_bind, Bool.false_eq_true, if_false, h8], h9⟩

theorem power2Loop_nan (k : Nat) : ∀ (i : Nat) (x y : Arr α) (w : Nat → α) (e : α), IsVec y n w → (∃ i < n, N (w i)) → N e →
    ∃ l x', power2Loop a opts k i x y e = .ok ((l, opts.maxIters), x') ∧ N l := by
  induction k with
  | zero => intro i x y w e _ _ he; exact ⟨e, x, rfl, he⟩
  | succ k ih =>
    intro i x y w e hy hw he
    obtain ⟨z, u, h4, h5, h6⟩ := normalize2_nan hN hy hw
    have h7 : ∃ i < n, N (u i) := by obtain ⟨i, hi, -⟩ := hw; exact ⟨i, hi, h6 i hi⟩
    obtain ⟨y', w', h1, h2, h3⟩ := dotMv_nan hN ha h5 (Or.inr h7)
    obtain ⟨d, h8, h9⟩ := dot_nan hN h5 h2 (Or.inl h7)
    obtain ⟨l, x', h10, h11⟩ := ih (i + 1) z y' w' d h2 h3 h9
    refine ⟨l, x', ?_, h11⟩
    simp only [power2Loop, h4, h1, h8, Res.ok_bind, hN.le_left (hN.abs (hN.sub_left he d)), Bool.false_eq_true, if_false, h10]

theorem power3Loop_nan (k : Nat) : ∀ (i : Nat) (x y : Arr α) (w : Nat → α) (e : α), IsVec y n w → (∃ i < n, N (w i)) → N e →
    ∃ l x', power3Loop a opts k i x y e = .ok ((l, opts.maxIters), x') ∧ N l := by
  induction k with
  | zero => intro i x y w e _ _ he; exact ⟨e, x, rfl, he⟩
  | succ k ih =>
    intro i x y w e hy hw he
    obtain ⟨d, h4, h5⟩ := dot_nan hN hy hy (Or.inl hw)
    obtain ⟨y', w', h1, h2, h3⟩ := dotMv_nan hN ha hy (Or.inr hw)
    obtain ⟨xn, h8, h9⟩ := dot_nan hN hy h2 (Or.inl hw)
    obtain ⟨l, x', h10, h11⟩ := ih (i + 1) y y' w' (xn / d) h2 h3 (hN.div_left h9 _)
    refine ⟨l, x', ?_, h11⟩
    simp only [power3Loop, h4, h1, h8, Res.ok_bind, Scalar.ge, hN.le_right _ h5, hN.le_left (hN.abs (hN.sub_left he _)),
      Bool.false_eq_true, if_false, h10]

end power

/-- **C81** (power iterations)  If the matrix or the starting vector has a NaN, all four power iterations use up all
iterations and return a NaN as the eigenvalue. -/
theorem C81_power_on_nan (hN : NanLaws N) {n : Nat} (a x : Arr α) (ha : a.IsMatShape n n) (hx : x.IsVecShape n)
    (h : a.SomeNan N ∨ x.SomeNan N) (opts : Options α) :
    ∀ f ∈ [powerIteration, powerIteration2, powerIteration3, powerIteration4],
      ∃ l x', f a x opts = .ok ((l, opts.maxIters), x') ∧ N l := by
  rw [ha.isMat.someNan, hx.isVec.someNan] at h
  have hn : 0 < n := by rcases h with ⟨i, hi, -⟩ | ⟨i, hi, -⟩ <;> omega
  have hz : ∃ z u, normalize2 x = .ok z ∧ IsVec z n u ∧
      ((∃ i < n, ∃ j < n, N (a.mat i j)) ∨ ∃ i < n, N (u i)) := by
    rcases h with h | h
    · exact ⟨_, _, by rw [normalize2, dot_spec hx.isVec hx.isVec]; rfl, hx.isVec.map _, Or.inl h⟩
    · obtain ⟨z, u, h4, h5, h6⟩ := normalize2_nan hN hx.isVec h
      exact ⟨z, u, h4, h5, Or.inr ⟨0, hn, h6 0 hn⟩⟩
  obtain ⟨z, u, hz1, hz2, hz3⟩ := hz
  intro f hf
  simp only [List.mem_cons, List.not_mem_nil, or_false] at hf
  rcases hf with rfl | rfl | rfl | rfl
  · obtain ⟨l, x', h1, h2⟩ := powerLoop_nan hN ha.isMat opts opts.maxIters 0 z u hz2 hz3
    exact ⟨l, x', by simp only [powerIteration, hz1, Res.ok_bind, h1], h2⟩
  · obtain ⟨y, w, h3, h4, h5⟩ := dotMv_nan hN ha.isMat hz2 hz3
    obtain ⟨d, h6, h7⟩ := dot_nan hN hz2 h4 (Or.inr h5)
    obtain ⟨l, x', h1, h2⟩ := power2Loop_nan hN ha.isMat opts opts.maxIters 0 z y w d h4 h5 h7
    exact ⟨l, x', by simp only [powerIteration2, hz1, h3, h6, Res.ok_bind, h1], h2⟩
  · obtain ⟨y, w, h3, h4, h5⟩ := dotMv_nan hN ha.isMat hx.isVec h
    obtain ⟨xn, h6, h7⟩ := dot_nan hN hx.isVec h4 (Or.inr h5)
    obtain ⟨l, x', h1, h2⟩ := power3Loop_nan hN ha.isMat opts opts.maxIters 0 x y w
      (xn / sumTo n fun i => x.vec i * x.vec i) h4 h5 (hN.div_left h7 _)
    exact ⟨l, x', by simp only [powerIteration3, h3, dot_spec hx.isVec hx.isVec, h6, Res.ok_bind, h1], h2⟩
  · have h5 : IsVec (x.divScalar (normL1 x)) n _ := hx.isVec.map _
    obtain ⟨l, x', h1, h2⟩ := power4Loop_nan hN ha.isMat opts opts.maxIters 0 _ _ h5 (by
      rcases h with h | h
      · exact Or.inl h
      · obtain ⟨i, hi, -⟩ := id h
        exact Or.inr ⟨i, hi, hN.mul_right _ (hN.div_right _ (normL1_nan hN hx.isVec h))⟩)
    exact ⟨l, x', by simp only [powerIteration4, h1], h2⟩

section cg
variable (hN : NanLaws N) {n : Nat}

omit [Scalar α] in
theorem cgFill {y : Arr α} {v : Nat → α} (hy : IsVec y n v) (g : Nat → α → α) {f : Nat → Arr α → Res (Arr α)}
    (hf : ∀ i (y : Arr α) (w : Nat → α), i < n → IsVec y n w → f i y = y.setIdx i (g i (w i))) :
    ∃ y', forRange 0 n y f = .ok y' ∧ IsVec y' n fun i => g i (v i) := by
  refine forRange_post (fun i (y : Arr α) => IsVec y n fun p => if p < i then g p (v p) else v p) (Nat.zero_le n)
    (hy.congr (by intros; simp)) ?_ fun y hy => hy.congr (by intro p hp; simp [hp])
  intro i y _ hi hy
  obtain ⟨y', h1, h2⟩ := hy.setIdx hi (g i (v i))
  refine ⟨y', by rw [hf i y _ hi hy, if_neg (by omega), h1], h2.congr ?_⟩
  intro p _
  simp only [upd1]
  by_cases hp : p = i
  · subst hp; simp
  · simp only [if_neg hp]; congr 1; apply propext; omega

theorem cgAxpy_gen {d y : Arr α} {u v : Nat → α} (hd : IsVec d n u) (hy : IsVec y n v) (s : α) :
    ∃ y', cgAxpy n s d y = .ok y' ∧ IsVec y' n fun i => v i + s * u i :=
  cgFill hy (fun i z => z + s * u i) fun i y w hi hw => by rw [hw.idx hi, hd.idx hi]; rfl

theorem cgAxmy_gen {d y : Arr α} {u v : Nat → α} (hd : IsVec d n u) (hy : IsVec y n v) (s : α) :
    ∃ y', cgAxmy n s d y = .ok y' ∧ IsVec y' n fun i => v i - s * u i :=
  cgFill hy (fun i z => z - s * u i) fun i y w hi hw => by rw [hw.idx hi, hd.idx hi]; rfl

theorem cgXpay_gen {r p : Arr α} {u v : Nat → α} (hr : IsVec r n u) (hp : IsVec p n v) (s : α) :
    ∃ p', cgXpay n s r p = .ok p' ∧ IsVec p' n fun i => u i + s * v i :=
  cgFill hp (fun i z => u i + s * z) fun i y w hi hw => by rw [hw.idx hi, hr.idx hi]; rfl

include hN

theorem cgLoop_nan {a : Arr α} {m : Nat → Nat → α} (ha : IsMat a n n m) (tol : α) (k : Nat) :
    ∀ (x r d : Arr α) (vx vr vd : Nat → α) (rr : α), IsVec x n vx → IsVec r n vr → IsVec d n vd → (∃ i < n, N (vd i)) →
      cgLoop a n tol k x r d rr = .ok (.error .maxIters) := by
  induction k with
  | zero => intros; rfl
  | succ k ih =>
    intro x r d vx vr vd rr hx hr hd hnan
    obtain ⟨y, w, h1, h2, h3⟩ := dotMv_nan hN ha hd (Or.inr hnan)
    obtain ⟨dd, h4, h5⟩ := dot_nan hN hd h2 (Or.inl hnan)
    have hs : N (rr / dd) := hN.div_right _ h5
    obtain ⟨x', h6, h7⟩ := cgAxpy_gen hd hx (rr / dd)
    obtain ⟨r', h8, h9⟩ := cgAxmy_gen h2 hr (rr / dd)
    obtain ⟨i, hi, hi'⟩ := hnan
    obtain ⟨q, h10, h11⟩ := dot_nan hN h9 h9 (Or.inl ⟨i, hi, hN.sub_right _ (hN.mul_left hs _)⟩)
    obtain ⟨d', h12, h13⟩ := cgXpay_gen h9 hd (q / rr)
    have h14 := ih x' r' d' _ _ _ q h7 h9 h13 ⟨i, hi, hN.add_right _ (hN.mul_left (hN.div_left h11 _) _)⟩
    simp only [cgLoop, h1, h4, Res.ok_bind, hN.beq_left h5, Bool.false_eq_true, if_false, h6, h8, h10,
      hN.lt_left (hN.sqrt h11), h12, h14]

/-- **C81** (conjugate gradients)  If the matrix, the right-hand side or the starting point has a NaN, the answer is the
error "did not converge after max iterations": a NaN never comes back as a solution. -/
theorem C81_cg_on_nan (a b : Arr α) (x0 : Option (Arr α)) (ha : a.IsMatShape n n) (hb : b.IsVecShape n)
    (hx0 : ∀ x, x0 = some x → x.IsVecShape n)
    (h : a.SomeNan N ∨ b.SomeNan N ∨ ∃ x, x0 = some x ∧ x.SomeNan N) (tol : α) (maxIter : Nat) :
    conjugateGradient a b x0 tol maxIter = .ok (.error .maxIters) := by
  obtain ⟨x, hxd, vx, hx, hor⟩ : ∃ x, x0.getD (Arr.new n) = x ∧ ∃ vx, IsVec x n vx ∧
      ((∃ i < n, ∃ j < n, N (a.mat i j)) ∨ (∃ i < n, N (b.vec i)) ∨ ∃ i < n, N (vx i)) := by
    rw [ha.isMat.someNan, hb.isVec.someNan] at h
    cases x0 with
    | none =>
      refine ⟨_, rfl, _, isVec_new n, ?_⟩
      rcases h with h | h | ⟨x, hx, -⟩
      · exact Or.inl h
      · exact Or.inr (Or.inl h)
      · simp at hx
    | some x =>
      have hx := (hx0 x rfl).isVec
      refine ⟨x, rfl, _, hx, ?_⟩
      rcases h with h | h | ⟨x', hx', h⟩
      · exact Or.inl h
      · exact Or.inr (Or.inl h)
      · cases hx'; exact Or.inr (Or.inr (hx.someNan.1 h))
  have hn : 0 < n := by rcases hor with ⟨i, hi, -⟩ | ⟨i, hi, -⟩ | ⟨i, hi, -⟩ <;> omega
  obtain ⟨y, w, h1, h2, h3⟩ : ∃ y w, a.dotMv x = .ok y ∧ IsVec y n w ∧
      ((∃ i < n, N (w i)) ∨ ∃ i < n, N (b.vec i)) := by
    rcases hor with h | h | h
    · obtain ⟨y, w, h1, h2, h3⟩ := dotMv_nan hN ha.isMat hx (Or.inl h)
      exact ⟨y, w, h1, h2, Or.inl h3⟩
    · obtain ⟨y, h1, h2⟩ := dotMv_spec ha.isMat hx hn
      exact ⟨y, _, h1, h2, Or.inr h⟩
    · obtain ⟨y, w, h1, h2, h3⟩ := dotMv_nan hN ha.isMat hx (Or.inr h)
      exact ⟨y, w, h1, h2, Or.inl h3⟩
  obtain ⟨r, h4, h5⟩ := hb.isVec.zipWith h2 (· - ·)
  have h6 : ∃ i < n, N (b.vec i - w i) := by
    rcases h3 with ⟨i, hi, h⟩ | ⟨i, hi, h⟩
    · exact ⟨i, hi, hN.sub_right _ h⟩
    · exact ⟨i, hi, hN.sub_left h _⟩
  simp only [conjugateGradient, hb.isVec.len', hxd, h1, Arr.sub, h4, dot_spec h5 h5, Res.ok_bind]
  exact cgLoop_nan hN ha.isMat tol maxIter x r r vx _ _ _ hx h5 h5 h6

end cg

section bsearch
variable {Ω : Type}

theorem bsearchLoop_nan (hN : NanLaws N) (orc : OracleBS Ω α) {tol : α} (ht : N tol) (k : Nat) :
    ∀ (i : Nat) (w : Ω) (l u : α) (r : α × α) (i' : Nat) (w' : Ω),
      bsearchLoop orc tol k i w l u = .ok (r, i', w') → i' = i + k := by
  induction k with
  | zero =>
    intro i w l u r i' w' h
    simp only [bsearchLoop, Res.ok.injEq, Prod.mk.injEq] at h
    omega
  | succ k ih =>
    intro i w l u r i' w' h
    simp only [bsearchLoop, hN.lt_right _ ht, Bool.false_eq_true, if_false, Res.bind_eq_ok] at h
    obtain ⟨⟨feas, w1⟩, -, h⟩ := h
    split at h
    · have := ih _ _ _ _ _ _ _ h; omega
    · have := ih _ _ _ _ _ _ _ h; omega

/-- **C81** (binary search)  A NaN bound makes `bsearch` panic before the oracle is asked; with a NaN tolerance it uses up
all iterations. -/
theorem C81_bsearch_on_nan (hN : NanLaws N) (orc : OracleBS Ω α) (w : Ω) (l u : α) (opts : Options α) :
    (N l ∨ N u → bsearch orc w (l, u) opts = .panic) ∧
    (N opts.tolerance → ∀ ok k w' iv, bsearch orc w (l, u) opts = .ok ((ok, k), w', iv) → k = opts.maxIters) := by
  constructor
  · intro h
    have : Scalar.le l u = false := h.elim (fun h => hN.le_left h _) fun h => hN.le_right _ h
    simp only [bsearch, this]
    rfl
  · intro ht ok k w' iv h
    simp only [bsearch, Res.bind_eq_ok, Res.ok.injEq, Prod.mk.injEq] at h
    obtain ⟨-, -, ⟨⟨l', u'⟩, k', w1⟩, h1, ⟨-, rfl⟩, -, -⟩ := h
    have := bsearchLoop_nan hN orc ht _ _ _ _ _ _ _ _ h1
    simpa using this

end bsearch

end Ellalgo

import Verif.Lib.Checked

/-! Array operations and loops commute with reading numbers as checked numbers. -/

namespace Ellalgo

section res
variable {β γ δ ε : Type}

theorem Res.map_ok' (f : β → γ) (b : β) : (Res.ok b).map f = .ok (f b) := rfl

theorem Res.map_eq_ok {f : β → γ} {x : Res β} {c : γ} : x.map f = .ok c ↔ ∃ b, x = .ok b ∧ f b = c := by
  cases x <;> simp [Res.map]

/-- sequencing commutes with a change of representation -/
theorem Res.bind_sim {x : Res β} {x' : Res γ} {L : β → γ} {f : β → Res δ} {f' : γ → Res ε} {M : δ → ε}
    (hx : x' = x.map L) (hf : ∀ s, x = .ok s → f' (L s) = (f s).map M) : (x' >>= f') = (x >>= f).map M := by
  subst hx
  cases x with
  | ok s => exact hf s rfl
  | panic => rfl

theorem Res.assert_sim {c : Bool} {f : Unit → Res δ} {f' : Unit → Res ε} {M : δ → ε}
    (hf : c = true → f' () = (f ()).map M) : (Res.assert c >>= f') = (Res.assert c >>= f).map M := by
  cases c
  · rfl
  · exact hf rfl

/-- a loop whose body commutes with a change of representation on the states it reaches -/
theorem forN_sim {σ σ' : Type} {L : σ → σ'} {f : Nat → σ → Res σ} {f' : Nat → σ' → Res σ'} (P : Nat → σ → Prop) (k : Nat) :
    ∀ (lo : Nat) (s : σ), P lo s →
      (∀ i s, lo ≤ i → i < lo + k → P i s → f' i (L s) = (f i s).map L ∧ ∀ s', f i s = .ok s' → P (i + 1) s') →
      forN k lo (L s) f' = (forN k lo s f).map L := by
  induction k with
  | zero => intro lo s _ _; rfl
  | succ k ih =>
    intro lo s hs h
    simp only [forN]
    obtain ⟨h1, h2⟩ := h lo s le_rfl (by omega) hs
    exact Res.bind_sim h1 fun s' hs' => ih (lo + 1) s' (h2 s' hs') fun i t hi hi' => h i t (by omega) (by omega)

theorem forRange_sim {σ σ' : Type} {L : σ → σ'} {f : Nat → σ → Res σ} {f' : Nat → σ' → Res σ'} (P : Nat → σ → Prop)
    {lo hi : Nat} {s : σ} (hs : P lo s)
    (h : ∀ i s, lo ≤ i → i < hi → P i s → f' i (L s) = (f i s).map L ∧ ∀ s', f i s = .ok s' → P (i + 1) s') :
    forRange lo hi (L s) f' = (forRange lo hi s f).map L :=
  forN_sim P (hi - lo) lo s hs fun i t h1 h2 => h i t h1 (by omega)

/-- the same without an invariant -/
theorem forRange_sim' {σ σ' : Type} {L : σ → σ'} {f : Nat → σ → Res σ} {f' : Nat → σ' → Res σ'} {lo hi : Nat} {s : σ}
    (h : ∀ i s, f' i (L s) = (f i s).map L) : forRange lo hi (L s) f' = (forRange lo hi s f).map L :=
  forRange_sim (fun _ _ => True) trivial fun i s _ _ _ => ⟨h i s, fun _ _ => trivial⟩

theorem forDownN_sim {σ σ' : Type} {L : σ → σ'} {f : Nat → σ → Res σ} {f' : Nat → σ' → Res σ'}
    (h : ∀ i s, f' i (L s) = (f i s).map L) (k lo : Nat) : ∀ s : σ, forDownN k lo (L s) f' = (forDownN k lo s f).map L := by
  induction k with
  | zero => intro s; rfl
  | succ k ih => intro s; simp only [forDownN]; exact Res.bind_sim (h _ _) fun s' _ => ih s'

theorem forDown_sim {σ σ' : Type} {L : σ → σ'} {f : Nat → σ → Res σ} {f' : Nat → σ' → Res σ'} {lo hi : Nat} {s : σ}
    (h : ∀ i s, f' i (L s) = (f i s).map L) : forDown lo hi (L s) f' = (forDown lo hi s f).map L :=
  forDownN_sim h _ _ s

theorem mapM_sim {β β' : Type} {L : β → β'} {ι : Type} {f : ι → Res β} {f' : ι → Res β'} (h : ∀ i, f' i = (f i).map L)
    (l : List ι) : l.mapM f' = (l.mapM f).map (List.map L) := by
  induction l with
  | nil => rfl
  | cons i l ih =>
    simp only [List.mapM_cons]
    refine Res.bind_sim (h i) fun s _ => Res.bind_sim ih fun t _ => rfl

theorem ite_sim {f : β → γ} {c c' : Bool} (hc : c' = c) {x y : Res β} {x' y' : Res γ} (hx : c = true → x' = x.map f)
    (hy : c = false → y' = y.map f) :
    (if c' = true then x' else y') = (if c = true then x else y).map f := by
  subst hc
  cases c'
  · simpa using hy rfl
  · simpa using hx rfl

end res

namespace Arr
variable (a b x : Arr ℝ)

@[simp] theorem lift_len : a.lift.len = a.len := by simp [Arr.lift, Arr.len]
@[simp] theorem lift_is2d : a.lift.is2d = a.is2d := rfl
@[simp] theorem lift_rows : a.lift.rows = a.rows := rfl
@[simp] theorem lift_cols : a.lift.cols = a.cols := rfl

theorem new_lift (n : Nat) : (Arr.new n : Arr Chk) = (Arr.new n : Arr ℝ).lift := by
  simp [Arr.new, Arr.lift]
theorem zeros_lift (r c : Nat) : (Arr.zeros r c : Arr Chk) = (Arr.zeros r c : Arr ℝ).lift := by
  simp [Arr.zeros, Arr.lift]
theorem ofList_lift (l : List ℝ) : Arr.ofList (l.map Chk.val) = (Arr.ofList l).lift := by
  simp [Arr.ofList, Arr.lift]

theorem idx_lift (i : Nat) : a.lift.idx i = (a.idx i).map .val := by
  simp only [Arr.idx, Arr.lift, List.getElem?_map]
  cases a.data[i]? <;> rfl

theorem setIdx_lift (i : Nat) (v : ℝ) : a.lift.setIdx i (.val v) = (a.setIdx i v).map lift := by
  simp only [Arr.setIdx]
  by_cases h : i < a.data.length
  · rw [if_pos (by simpa [Arr.lift] using h), if_pos h]
    simp [Res.map, Arr.lift, List.map_set]
  · rw [if_neg (by simpa [Arr.lift] using h), if_neg h]; rfl

theorem get_lift (i j : Nat) : a.lift.get i j = (a.get i j).map .val :=
  Res.assert_sim (c := a.is2d) fun _ => idx_lift a _

theorem set_lift (i j : Nat) (v : ℝ) : a.lift.set i j (.val v) = (a.set i j v).map lift :=
  Res.assert_sim (c := a.is2d) fun _ => setIdx_lift a _ v

theorem zipWith_lift {f : ℝ → ℝ → ℝ} {f' : Chk → Chk → Chk} (h : ∀ u v, f' (.val u) (.val v) = .val (f u v)) :
    Arr.zipWith f' a.lift b.lift = (Arr.zipWith f a b).map lift := by
  unfold Arr.zipWith
  rw [lift_len, lift_len]
  refine Res.assert_sim fun _ => ?_
  simp only [Res.map, Arr.lift, Res.ok.injEq, Arr.mk.injEq, and_self, and_true]
  rw [List.zipWith_map, List.map_zipWith]
  congr 1
  funext u v
  exact h u v

theorem add_lift : a.lift.add b.lift = (a.add b).map lift := zipWith_lift a b fun _ _ => rfl
theorem sub_lift : a.lift.sub b.lift = (a.sub b).map lift := zipWith_lift a b fun _ _ => rfl
theorem mul_lift : a.lift.mul b.lift = (a.mul b).map lift := zipWith_lift a b fun _ _ => rfl

theorem map_lift {f : ℝ → ℝ} {f' : Chk → Chk} (h : ∀ u ∈ a.data, f' (.val u) = .val (f u)) :
    a.lift.map f' = (a.map f).lift := by
  simp only [Arr.map, Arr.lift, List.map_map, Arr.mk.injEq, and_true, and_self]
  exact List.map_congr_left fun u hu => h u hu

theorem addScalar_lift (s : ℝ) : a.lift.addScalar (.val s) = (a.addScalar s).lift := map_lift a fun _ _ => rfl
theorem smul_lift (s : ℝ) : a.lift.smul (.val s) = (a.smul s).lift := map_lift a fun _ _ => rfl
theorem neg_lift : a.lift.neg = a.neg.lift := map_lift a fun _ _ => rfl
theorem divScalar_lift {s : ℝ} (hs : s ≠ 0) : a.lift.divScalar (.val s) = (a.divScalar s).lift :=
  map_lift a fun u _ => by rw [Chk.one_val, Chk.div_val _ hs, Chk.mul_val]

theorem foldl_val (l : List ℝ) : ∀ s : ℝ, (l.map Chk.val).foldl (· + ·) (.val s) = .val (l.foldl (· + ·) s) := by
  induction l with
  | nil => intro s; rfl
  | cons u l ih => intro s; exact ih (s + u)

theorem sum_lift : a.lift.sum = .val a.sum := foldl_val a.data 0

theorem dot_lift : a.lift.dot b.lift = (a.dot b).map .val := by
  unfold Arr.dot
  rw [lift_len, lift_len, lift_is2d, lift_is2d]
  refine Res.assert_sim fun _ => Res.assert_sim fun _ => ?_
  simp only [Res.map, Arr.lift, Res.ok.injEq]
  rw [List.zipWith_map]
  have e : List.zipWith (fun u v => Chk.val u * Chk.val v) a.data b.data =
      (List.zipWith (· * ·) a.data b.data).map Chk.val := by
    rw [List.map_zipWith]; rfl
  rw [e]
  exact foldl_val _ 0

theorem dotMv_lift : a.lift.dotMv x.lift = (a.dotMv x).map lift := by
  unfold Arr.dotMv
  rw [lift_len, lift_is2d, lift_is2d]
  refine Res.assert_sim fun _ => Res.assert_sim fun _ => Res.assert_sim fun _ => ?_
  refine Res.bind_sim (mapM_sim (L := Chk.val) (fun i => ?_) _) fun s _ => rfl
  refine forRange_sim' (L := Chk.val) (s := (0 : ℝ)) fun j s => ?_
  exact Res.bind_sim (idx_lift a _) fun u _ => Res.bind_sim (idx_lift x _) fun v _ => rfl

theorem row_lift (i : Nat) : a.lift.row i = (a.row i).map lift := by
  unfold Arr.row
  refine Res.assert_sim (c := a.is2d) fun _ => Res.assert_sim (c := decide (i < a.rows)) fun _ => ?_
  have : a.lift.data.length = a.data.length := by simp [Arr.lift]
  rw [lift_cols, this]
  refine Res.assert_sim fun _ => ?_
  simp [Res.map, Arr.lift, List.map_take, List.map_drop]

end Arr

theorem Arr.idx_setIdx_ne {α : Type} {a a' : Arr α} {i j : Nat} {v : α} (h : a.setIdx i v = .ok a') (hij : i ≠ j) :
    a'.idx j = a.idx j := by
  simp only [Arr.setIdx] at h
  split at h
  · simp only [Res.ok.injEq] at h
    subst h
    simp only [Arr.idx]
    rw [List.getElem?_set_ne hij]
  · exact absurd h (by simp)

theorem Arr.idx_setIdx_eq {α : Type} {a a' : Arr α} {i : Nat} {v : α} (h : a.setIdx i v = .ok a') :
    a'.idx i = .ok v := by
  simp only [Arr.setIdx] at h
  split at h
  · rename_i hi
    simp only [Res.ok.injEq] at h
    subst h
    simp [Arr.idx, hi]
  · exact absurd h (by simp)

end Ellalgo

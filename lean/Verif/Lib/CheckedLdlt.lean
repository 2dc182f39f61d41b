import Verif.Lib.CheckedArr
import Verif.Spec.CheckedOracles

/-! The factorisation in checked arithmetic. -/

namespace Ellalgo

theorem flat_ne {n a b c d : Nat} (hb : b < n) (hd : d < n) (h : ¬ (a = c ∧ b = d)) : a * n + b ≠ c * n + d := by
  intro he
  apply h
  have hn : 0 < n := by omega
  have h1 : (a * n + b) / n = a := by rw [Nat.mul_comm, Nat.mul_add_div hn, Nat.div_eq_of_lt hb]; omega
  have h2 : (c * n + d) / n = c := by rw [Nat.mul_comm, Nat.mul_add_div hn, Nat.div_eq_of_lt hd]; omega
  have h3 : a = c := by rw [← h1, ← h2, he]
  subst h3
  exact ⟨rfl, by omega⟩

/-- the pivots of rows `start..i` are positive -/
def PivPos (n start i : Nat) (st : Arr ℝ) : Prop := ∀ j, start ≤ j → j < i → ∀ d, st.idx (j * n + j) = .ok d → 0 < d

theorem PivPos.set {n start i : Nat} {st st' : Arr ℝ} (h : PivPos n start i st) {k l : Nat} {v : ℝ} (hl : l < n) (hi : i ≤ n)
    (hkl : k ≠ l) (hs : st.setIdx (k * n + l) v = .ok st') : PivPos n start i st' := by
  intro j h1 h2 d hd
  rw [Arr.idx_setIdx_ne hs (flat_ne hl (by omega) (by omega))] at hd
  exact h j h1 h2 d hd

theorem factorRow_diag {ge : Nat → Nat → Res ℝ} {n start i : Nat} (hi : i < n) {st : Arr ℝ} {d : ℝ} {st' : Arr ℝ}
    (h : LDLTMgr.factorRow ge n start i st = .ok (d, st')) :
    (∀ j < i, st'.idx (j * n + j) = st.idx (j * n + j)) ∧ st'.idx (i * n + i) = .ok d := by
  unfold LDLTMgr.factorRow at h
  simp only [Res.bind_eq_ok] at h
  obtain ⟨d0, -, ⟨d1, st1⟩, h1, st2, h2, h3⟩ := h
  simp only [Res.ok.injEq, Prod.mk.injEq] at h3
  obtain ⟨rfl, rfl⟩ := h3
  have key : ∀ j < i, st1.idx (j * n + j) = st.idx (j * n + j) := by
    have gen : ∀ k lo (p q : ℝ × Arr ℝ), (k = 0 ∨ lo + k ≤ i) →
        forN k lo p (fun j (p : ℝ × Arr ℝ) => do
          let (diag, st) := p
          let st ← st.setIdx (j * n + i) diag
          let djj ← st.idx (j * n + j)
          let val := diag / djj
          let st ← st.setIdx (i * n + j) val
          let stop := j + 1
          let s ← forRange start stop (0 : ℝ) fun k s => do
            let a ← st.idx (i * n + k)
            let b ← st.idx (k * n + stop)
            .ok (s + a * b)
          let e ← ge i stop
          .ok (e - s, st)) = .ok q → ∀ j < i, q.2.idx (j * n + j) = p.2.idx (j * n + j) := by
      intro k
      induction k with
      | zero =>
        intro lo p q _ h j _
        simp only [forN, Res.ok.injEq] at h
        rw [← h]
      | succ k ih =>
        intro lo p q hk h j hj
        simp only [forN, Res.bind_eq_ok] at h
        obtain ⟨p', ⟨s1, e1, djj, e2, s2, e3, s, e4, e, e5, e6⟩, h⟩ := h
        simp only [Res.ok.injEq] at e6
        subst e6
        rw [ih (lo + 1) _ q (by omega) h j hj]
        show s2.idx _ = _
        rw [Arr.idx_setIdx_ne e3 (flat_ne (by omega) (by omega) (by omega)),
          Arr.idx_setIdx_ne e1 (flat_ne hi (by omega) (by omega))]
    exact gen (i - start) start (d0, st) (d1, st1) (by omega) h1
  refine ⟨?_, Arr.idx_setIdx_eq h2⟩
  intro j hj
  rw [Arr.idx_setIdx_ne h2 (flat_ne hi (by omega) (by omega))]
  exact key j hj

theorem factorRow_inv {ge : Nat → Nat → Res ℝ} {n start i : Nat} (hi : i < n) {st : Arr ℝ} (hp : PivPos n start i st) {d : ℝ}
    {st' : Arr ℝ} (h : LDLTMgr.factorRow ge n start i st = .ok (d, st')) :
    PivPos n start i st' ∧ st'.idx (i * n + i) = .ok d := by
  obtain ⟨h1, h2⟩ := factorRow_diag hi h
  refine ⟨fun j a b c hc => ?_, h2⟩
  rw [h1 j b] at hc
  exact hp j a b c hc

/-- no pivot of the rows before `i` is negative -/
def PivNonneg (n i : Nat) (st : Arr ℝ) : Prop := ∀ j < i, ∀ d, st.idx (j * n + j) = .ok d → 0 ≤ d

theorem PivNonneg.row {ge : Nat → Nat → Res ℝ} {n start i : Nat} (hi : i < n) {st : Arr ℝ} (hp : PivNonneg n i st) {d : ℝ}
    {st' : Arr ℝ} (h : LDLTMgr.factorRow ge n start i st = .ok (d, st')) (hd : 0 ≤ d) : PivNonneg n (i + 1) st' := by
  obtain ⟨h1, h2⟩ := factorRow_diag hi h
  intro j hj c hc
  by_cases hji : j = i
  · subst hji
    rw [h2, Res.ok.injEq] at hc
    linarith
  · rw [h1 j (by omega)] at hc
    exact hp j (by omega) c hc

theorem factorLoop_nonneg {ge : Nat → Nat → Res ℝ} {n : Nat} (k : Nat) : ∀ (i : Nat) (st : Arr ℝ), i + k = n → PivNonneg n i st →
    ∀ pos st', LDLTMgr.factorLoop ge n k i st = .ok (pos, st') → pos.2 = 0 → PivNonneg n n st' := by
  induction k with
  | zero =>
    intro i st hi hp pos st' h _
    simp only [LDLTMgr.factorLoop, Res.ok.injEq, Prod.mk.injEq] at h
    obtain ⟨-, rfl⟩ := h
    have : i = n := by omega
    rwa [this] at hp
  | succ k ih =>
    intro i st hi hp pos st' h hpos
    simp only [LDLTMgr.factorLoop, Res.bind_eq_ok] at h
    obtain ⟨⟨d, s⟩, h1, h2⟩ := h
    by_cases hd : d ≤ 0
    · simp only [Scalar.real_le, hd, decide_true, if_true, Res.ok.injEq, Prod.mk.injEq] at h2
      rw [← h2.1] at hpos
      simp at hpos
    · simp only [Scalar.real_le, hd, decide_false, Bool.false_eq_true, if_false] at h2
      exact ih (i + 1) s (by omega) (hp.row (by omega) h1 (by linarith)) pos st' h2 hpos

theorem factorSemiLoop_nonneg {ge : Nat → Nat → Res ℝ} {n : Nat} (k : Nat) : ∀ (i start : Nat) (st : Arr ℝ), i + k = n →
    PivNonneg n i st → ∀ pos st', LDLTMgr.factorSemiLoop ge n k i start st = .ok (pos, st') → pos.2 = 0 → PivNonneg n n st' := by
  induction k with
  | zero =>
    intro i start st hi hp pos st' h _
    simp only [LDLTMgr.factorSemiLoop, Res.ok.injEq, Prod.mk.injEq] at h
    obtain ⟨-, rfl⟩ := h
    have : i = n := by omega
    rwa [this] at hp
  | succ k ih =>
    intro i start st hi hp pos st' h hpos
    simp only [LDLTMgr.factorSemiLoop, Res.bind_eq_ok] at h
    obtain ⟨⟨d, s⟩, h1, h2⟩ := h
    by_cases hd : d < 0
    · simp only [Scalar.real_lt, hd, decide_true, if_true, Res.ok.injEq, Prod.mk.injEq] at h2
      rw [← h2.1] at hpos
      simp at hpos
    · have hr := hp.row (by omega) h1 (not_lt.1 hd)
      simp only [Scalar.real_lt, hd, decide_false, Bool.false_eq_true, if_false] at h2
      by_cases hd0 : d = 0
      · simp only [Scalar.real_beq, hd0, decide_true, if_true] at h2
        exact ih (i + 1) _ s (by omega) hr pos st' h2 hpos
      · simp only [Scalar.real_beq, hd0, decide_false, Bool.false_eq_true, if_false] at h2
        exact ih (i + 1) _ s (by omega) hr pos st' h2 hpos

theorem factor_nonneg {ge : Nat → Nat → Res ℝ} {m m' : LDLTMgr ℝ} (h : m.factor ge = .ok (true, m')) :
    m'.ndim = m.ndim ∧ PivNonneg m.ndim m.ndim m'.storage := by
  simp only [LDLTMgr.factor, Res.bind_eq_ok] at h
  obtain ⟨⟨pos, st⟩, h1, h2⟩ := h
  simp only [Res.ok.injEq, Prod.mk.injEq, LDLTMgr.isSpd, beq_iff_eq] at h2
  obtain ⟨h2, rfl⟩ := h2
  exact ⟨rfl, factorLoop_nonneg m.ndim 0 m.storage (by omega) (fun j hj => by omega) pos st h1 h2⟩

theorem factorSemi_nonneg {ge : Nat → Nat → Res ℝ} {m m' : LDLTMgr ℝ} (h : m.factorSemi ge = .ok (true, m')) :
    m'.ndim = m.ndim ∧ PivNonneg m.ndim m.ndim m'.storage := by
  simp only [LDLTMgr.factorSemi, Res.bind_eq_ok] at h
  obtain ⟨⟨pos, st⟩, h1, h2⟩ := h
  simp only [Res.ok.injEq, Prod.mk.injEq, LDLTMgr.isSpd, beq_iff_eq] at h2
  obtain ⟨h2, rfl⟩ := h2
  exact ⟨rfl, factorSemiLoop_nonneg m.ndim 0 0 m.storage (by omega) (fun j hj => by omega) pos st h1 h2⟩

/-- lift a diagonal entry and the storage -/
def liftDS (p : ℝ × Arr ℝ) : Chk × Arr Chk := (.val p.1, p.2.lift)

variable {ge : Nat → Nat → Res ℝ} {ge' : Nat → Nat → Res Chk}

theorem factorRow_lift (hge : ∀ i j, ge' i j = (ge i j).map .val) {n start i : Nat} (hi : i < n) {st : Arr ℝ}
    (hp : PivPos n start i st) :
    LDLTMgr.factorRow ge' n start i st.lift = (LDLTMgr.factorRow ge n start i st).map liftDS := by
  unfold LDLTMgr.factorRow
  refine Res.bind_sim (hge i start) fun d0 _ => ?_
  refine Res.bind_sim (L := liftDS) ?_ fun p _ => ?_
  · refine forRange_sim (L := liftDS) (s := (d0, st)) (fun _ p => PivPos n start i p.2) hp ?_
    rintro j ⟨d, s0⟩ h1 h2 hp
    refine ⟨?_, ?_⟩
    · refine Res.bind_sim (Arr.setIdx_lift s0 _ d) fun s1 e1 => ?_
      have hp1 : PivPos n start i s1 := PivPos.set hp hi hi.le (by omega) e1
      refine Res.bind_sim (Arr.idx_lift s1 _) fun djj e2 => ?_
      have hd : djj ≠ 0 := (hp1 j h1 h2 djj e2).ne'
      simp only [Chk.div_val _ hd]
      refine Res.bind_sim (Arr.setIdx_lift s1 _ _) fun s2 _ => ?_
      refine Res.bind_sim (L := Chk.val) (forRange_sim' (L := Chk.val) (s := (0 : ℝ)) fun k s => ?_) fun s _ => ?_
      · exact Res.bind_sim (Arr.idx_lift s2 _) fun u _ => Res.bind_sim (Arr.idx_lift s2 _) fun v _ => rfl
      · exact Res.bind_sim (hge i _) fun e _ => rfl
    · intro q hq
      simp only [Res.bind_eq_ok] at hq
      obtain ⟨s1, e1, djj, e2, s2, e3, s, e4, e, e5, e6⟩ := hq
      simp only [Res.ok.injEq] at e6
      subst e6
      exact (PivPos.set hp hi hi.le (by omega) e1).set (by omega) hi.le (by omega) e3
  · exact Res.bind_sim (Arr.setIdx_lift p.2 _ p.1) fun s _ => rfl

/-- lift the position and the storage -/
def liftPS (p : (Nat × Nat) × Arr ℝ) : (Nat × Nat) × Arr Chk := (p.1, p.2.lift)

theorem factorLoop_lift (hge : ∀ i j, ge' i j = (ge i j).map .val) {n : Nat} (k : Nat) : ∀ (i : Nat) (st : Arr ℝ), i + k ≤ n →
    PivPos n 0 i st → LDLTMgr.factorLoop ge' n k i st.lift = (LDLTMgr.factorLoop ge n k i st).map liftPS := by
  induction k with
  | zero => intro i st _ _; rfl
  | succ k ih =>
    intro i st hi hp
    unfold LDLTMgr.factorLoop
    refine Res.bind_sim (factorRow_lift hge (by omega) hp) fun p hp' => ?_
    obtain ⟨d, s⟩ := p
    obtain ⟨h1, h2⟩ := factorRow_inv (by omega) hp hp'
    simp only [liftDS, Chk.zero_val, Chk.le_val]
    by_cases hd : d ≤ 0
    · simp only [Scalar.real_le, hd, decide_true, if_true]; rfl
    · simp only [Scalar.real_le, hd, decide_false, Bool.false_eq_true, if_false]
      refine ih (i + 1) s (by omega) ?_
      intro j _ h4 d' hd'
      by_cases hj : j = i
      · subst hj
        rw [h2, Res.ok.injEq] at hd'
        linarith
      · exact h1 j (by omega) (by omega) d' hd'

theorem factorSemiLoop_lift (hge : ∀ i j, ge' i j = (ge i j).map .val) {n : Nat} (k : Nat) :
    ∀ (i start : Nat) (st : Arr ℝ), i + k ≤ n → start ≤ i → PivPos n start i st →
      LDLTMgr.factorSemiLoop ge' n k i start st.lift = (LDLTMgr.factorSemiLoop ge n k i start st).map liftPS := by
  induction k with
  | zero => intro i start st _ _ _; rfl
  | succ k ih =>
    intro i start st hi hsi hp
    unfold LDLTMgr.factorSemiLoop
    refine Res.bind_sim (factorRow_lift hge (by omega) hp) fun p hp' => ?_
    obtain ⟨d, s⟩ := p
    obtain ⟨h1, h2⟩ := factorRow_inv (by omega) hp hp'
    simp only [liftDS, Chk.zero_val, Chk.lt_val, Chk.beq_val]
    by_cases hd : d < 0
    · simp only [Scalar.real_lt, hd, decide_true, if_true]; rfl
    · simp only [Scalar.real_lt, hd, decide_false, Bool.false_eq_true, if_false]
      by_cases hd0 : d = 0
      · simp only [Scalar.real_beq, hd0, decide_true, if_true]
        exact ih (i + 1) (i + 1) s (by omega) le_rfl fun j _ _ => by omega
      · simp only [Scalar.real_beq, hd0, decide_false, Bool.false_eq_true, if_false]
        refine ih (i + 1) start s (by omega) (by omega) ?_
        intro j h3 h4 d' hd'
        by_cases hj : j = i
        · subst hj
          rw [h2, Res.ok.injEq] at hd'
          subst hd'
          exact lt_of_le_of_ne (not_lt.1 hd) (Ne.symm hd0)
        · exact h1 j h3 (by omega) d' hd'

/-- lift an answer together with a state -/
def liftSnd {β σ σ' : Type} (L : σ → σ') (p : β × σ) : β × σ' := (p.1, L p.2)

theorem factor_lift (hge : ∀ i j, ge' i j = (ge i j).map .val) (m : LDLTMgr ℝ) :
    m.lift.factor ge' = (m.factor ge).map (liftSnd LDLTMgr.lift) := by
  unfold LDLTMgr.factor
  exact Res.bind_sim (factorLoop_lift hge (n := m.ndim) m.ndim 0 m.storage (by omega) (fun j _ _ => by omega)) fun p _ => rfl

theorem factorSemi_lift (hge : ∀ i j, ge' i j = (ge i j).map .val) (m : LDLTMgr ℝ) :
    m.lift.factorSemi ge' = (m.factorSemi ge).map (liftSnd LDLTMgr.lift) := by
  unfold LDLTMgr.factorSemi
  exact Res.bind_sim (factorSemiLoop_lift hge (n := m.ndim) m.ndim 0 0 m.storage (by omega) le_rfl (fun j _ _ => by omega)) fun p _ => rfl

theorem witness_lift (m : LDLTMgr ℝ) :
    m.lift.witness = m.witness.map (fun p => (.val p.1, p.2.lift)) := by
  unfold LDLTMgr.witness
  refine Res.assert_sim (c := !m.isSpd) fun _ => ?_
  refine Res.bind_sim (Arr.setIdx_lift m.wit _ 1) fun w _ => ?_
  refine Res.bind_sim (L := Arr.lift) (forDown_sim (L := Arr.lift) (s := w) fun i w => ?_) fun w' _ => ?_
  · refine Res.bind_sim (L := Chk.val) (forRange_sim' (L := Chk.val) (s := (0 : ℝ)) fun k s => ?_) fun s _ => ?_
    · exact Res.bind_sim (Arr.idx_lift m.storage _) fun u _ => Res.bind_sim (Arr.idx_lift w _) fun v _ => rfl
    · exact Arr.setIdx_lift w _ (-s)
  · exact Res.bind_sim (Arr.idx_lift m.storage _) fun d _ => rfl

theorem symQuad_lift (m : LDLTMgr ℝ) (mat : Arr ℝ) : m.lift.symQuad mat.lift = (m.symQuad mat).map .val := by
  unfold LDLTMgr.symQuad
  refine forRange_sim' (L := Chk.val) (s := (0 : ℝ)) fun i s => forRange_sim' (L := Chk.val) fun j s => ?_
  exact Res.bind_sim (Arr.idx_lift m.wit _) fun u _ => Res.bind_sim (Arr.get_lift mat _ _) fun v _ =>
    Res.bind_sim (Arr.idx_lift m.wit _) fun w _ => rfl

theorem ldltSqrt_lift (m : LDLTMgr ℝ) (hpos : ∀ i d, i < m.ndim → m.storage.idx (i * m.ndim + i) = .ok d → 0 ≤ d) :
    m.lift.sqrt = m.sqrt.map Arr.lift := by
  unfold LDLTMgr.sqrt
  refine Res.assert_sim (c := m.isSpd) fun _ => ?_
  rw [show m.lift.ndim = m.ndim from rfl, Arr.zeros_lift]
  refine forRange_sim (L := Arr.lift) (fun _ _ => True) trivial fun i r _ hi _ => ⟨?_, fun _ _ => trivial⟩
  refine Res.bind_sim (Arr.idx_lift m.storage _) fun d hd => ?_
  have := hpos i d hi hd
  simp only [Chk.sqrt_val this]
  refine Res.bind_sim (Arr.set_lift r _ _ _) fun r1 _ => ?_
  refine forRange_sim' (L := Arr.lift) fun j r => ?_
  exact Res.bind_sim (Arr.idx_lift m.storage _) fun l _ => Arr.set_lift r _ _ _

end Ellalgo

import Verif.Lib.CheckedLdlt
import Verif.Model.Quasicvx

/-! The oracles in checked arithmetic: helper lemmas. -/

namespace Ellalgo

theorem nthMat_lift (fs : List (Arr ℝ)) (k : Nat) : nthMat (fs.map Arr.lift) k = (nthMat fs k).map Arr.lift := by
  simp only [nthMat, List.getElem?_map]
  cases fs[k]? <;> rfl

theorem nthI32_map {β γ : Type} (f : β → γ) (v : List β) (i : Int) : nthI32 (v.map f) i = (nthI32 v i).map f := by
  simp only [nthI32, List.getElem?_map]
  split
  · cases v[i.toNat]? <;> rfl
  · rfl

theorem rrLoop_sim {σ σ' β β' : Type} {L : σ → σ'} {M : β → β'} {lo hi : Int} {body : Int → σ → Res (Option β × σ)}
    {body' : Int → σ' → Res (Option β' × σ')}
    (h : ∀ i s, body' i (L s) = (body i s).map fun p => (p.1.map M, L p.2)) (k : Nat) : ∀ (idx : Int) (s : σ),
    rrLoop lo hi body' k idx (L s) = (rrLoop lo hi body k idx s).map fun p => (p.1.map M, p.2.1, L p.2.2) := by
  induction k with
  | zero => intro idx s; rfl
  | succ k ih =>
    intro idx s
    unfold rrLoop
    refine Res.bind_sim (h _ _) fun p _ => ?_
    obtain ⟨r, s'⟩ := p
    cases r with
    | some b => rfl
    | none => exact ih _ s'

/-- loops without further state -/
theorem rrLoop_sim_unit {β β' : Type} {M : β → β'} {lo hi : Int} {body : Int → Unit → Res (Option β × Unit)}
    {body' : Int → Unit → Res (Option β' × Unit)}
    (h : ∀ i, body' i () = (body i ()).map fun p => (p.1.map M, p.2)) (k : Nat) (idx : Int) :
    rrLoop lo hi body' k idx () = (rrLoop lo hi body k idx ()).map fun p => (p.1.map M, p.2.1, p.2.2) :=
  rrLoop_sim (L := id) (fun i _ => h i) k idx ()

/-! ### LMI -/

theorem lmiElem_lift (o : LMIOracle ℝ) (x : Arr ℝ) (i j : Nat) : o.lift.elem x.lift i j = (o.elem x i j).map .val := by
  unfold LMIOracle.elem
  rw [Arr.lift_len]
  refine Res.bind_sim (Arr.get_lift o.matB i j) fun s _ => ?_
  refine forRange_sim' (L := Chk.val) fun k s => ?_
  exact Res.bind_sim (nthMat_lift o.matF k) fun f _ => Res.bind_sim (Arr.get_lift f i j) fun u _ =>
    Res.bind_sim (Arr.idx_lift x k) fun v _ => rfl

theorem lmi0Elem_lift (o : LMI0Oracle ℝ) (x : Arr ℝ) (i j : Nat) : o.lift.elem x.lift i j = (o.elem x i j).map .val := by
  unfold LMI0Oracle.elem
  rw [Arr.lift_len]
  refine forRange_sim' (L := Chk.val) (s := (0 : ℝ)) fun k s => ?_
  exact Res.bind_sim (nthMat_lift o.matF k) fun f _ => Res.bind_sim (Arr.get_lift f i j) fun u _ =>
    Res.bind_sim (Arr.idx_lift x k) fun v _ => rfl

theorem lmiGrad_lift (m : LDLTMgr ℝ) (fs : List (Arr ℝ)) (n : Nat) :
    lmiGrad m.lift (fs.map Arr.lift) n = (lmiGrad m fs n).map Arr.lift := by
  unfold lmiGrad
  rw [Arr.new_lift]
  refine forRange_sim' (L := Arr.lift) fun k g => ?_
  exact Res.bind_sim (nthMat_lift fs k) fun f _ => Res.bind_sim (symQuad_lift m f) fun v _ => Arr.setIdx_lift g k v

theorem lmi0Grad_lift (m : LDLTMgr ℝ) (fs : List (Arr ℝ)) (n : Nat) :
    lmi0Grad m.lift (fs.map Arr.lift) n = (lmi0Grad m fs n).map Arr.lift := by
  unfold lmi0Grad
  rw [Arr.new_lift]
  refine forRange_sim' (L := Arr.lift) fun k g => ?_
  exact Res.bind_sim (nthMat_lift fs k) fun f _ => Res.bind_sim (symQuad_lift m f) fun v _ => Arr.setIdx_lift g k (-v)

theorem buildOld_lift (o : LMIOracle ℝ) (x : Arr ℝ) : o.lift.buildOld x.lift = (o.buildOld x).map Arr.lift := by
  unfold LMIOracle.buildOld
  rw [Arr.lift_len]
  refine forRange_sim' (L := Arr.lift) fun k a => ?_
  refine Res.bind_sim (Arr.idx_lift x k) fun xk _ => ?_
  refine forRange_sim' (L := Arr.lift) fun i a => forRange_sim' (L := Arr.lift) fun j a => ?_
  exact Res.bind_sim (Arr.get_lift a i j) fun u _ => Res.bind_sim (nthMat_lift o.matF k) fun f _ =>
    Res.bind_sim (Arr.get_lift f i j) fun v _ => Arr.set_lift a i j _

theorem lmiAssess_lift (o : LMIOracle ℝ) (x : Arr ℝ) :
    o.lift.assess x.lift = (o.assess x).map fun p => (p.1.map liftPair, p.2.lift) := by
  unfold LMIOracle.assess
  refine Res.bind_sim (factor_lift (lmiElem_lift o x) o.mgr) fun p _ => ?_
  obtain ⟨f, m⟩ := p
  cases f with
  | true => rfl
  | false =>
    refine Res.bind_sim (witness_lift m) fun q _ => ?_
    rw [Arr.lift_len]
    exact Res.bind_sim (lmiGrad_lift q.2 o.matF x.len) fun g _ => rfl

theorem lmiAssessOld_lift (o : LMIOracle ℝ) (x : Arr ℝ) :
    o.lift.assessOld x.lift = (o.assessOld x).map fun p => (p.1.map liftPair, p.2.lift) := by
  unfold LMIOracle.assessOld
  refine Res.bind_sim (buildOld_lift o x) fun a _ => ?_
  refine Res.bind_sim (factor_lift (Arr.get_lift a) o.mgr) fun p _ => ?_
  obtain ⟨f, m⟩ := p
  cases f with
  | true => rfl
  | false =>
    refine Res.bind_sim (witness_lift m) fun q _ => ?_
    rw [Arr.lift_len]
    exact Res.bind_sim (lmiGrad_lift q.2 o.matF x.len) fun g _ => rfl

theorem lmi0Assess_lift (o : LMI0Oracle ℝ) (x : Arr ℝ) :
    o.lift.assess x.lift = (o.assess x).map fun p => (p.1.map fun c => (c.1.lift, .val c.2), p.2.lift) := by
  unfold LMI0Oracle.assess
  refine Res.bind_sim (factor_lift (lmi0Elem_lift o x) o.mgr) fun p _ => ?_
  obtain ⟨f, m⟩ := p
  cases f with
  | true => rfl
  | false =>
    refine Res.bind_sim (witness_lift m) fun q _ => ?_
    rw [Arr.lift_len]
    exact Res.bind_sim (lmi0Grad_lift q.2 o.matF x.len) fun g _ => rfl

/-! ### the example oracles -/

/-- lift of an answer `Some((grad, cut))` -/
noncomputable abbrev liftAns (p : Option (Arr ℝ × SingleCut ℝ) × Unit) : Option (Arr Chk × SingleCut Chk) × Unit := (p.1.map liftPair, p.2)

theorem cutIf_lift {f : ℝ} {g : List ℝ} {f' : Chk} {g' : List Chk} (hf : f' = .val f) (hg : g' = g.map Chk.val) :
    cutIf f' g' = (cutIf f g).map liftAns := by
  subst hf; subst hg
  unfold cutIf
  rw [Arr.ofList_lift]
  exact ite_sim (Chk.gt_val f 0) (fun _ => rfl) fun _ => rfl

/-- lift of the answer of an optimisation oracle -/
noncomputable abbrev liftOpt {Ω Ω' T T' : Type} [CutType T ℝ] [CutType T' Chk] [LiftCut T T'] (L : Ω → Ω')
    (p : ((Arr ℝ × T) × Bool) × ℝ × Ω) : ((Arr Chk × T') × Bool) × Chk × Ω' := ((liftPair p.1.1, p.1.2), .val p.2.1, L p.2.2)

theorem ex1_lift (w : Unit) (x : Arr ℝ) (γ : ℝ) : ex1Assess w x.lift (.val γ) = (ex1Assess w x γ).map (liftOpt id) := by
  unfold ex1Assess
  refine Res.bind_sim (Arr.idx_lift x 0) fun u _ => Res.bind_sim (Arr.idx_lift x 1) fun v _ => ?_
  exact ite_sim (Chk.gt_val _ 0) (fun _ => rfl) fun _ => ite_sim (Chk.gt_val _ 0) (fun _ => rfl) fun _ =>
    ite_sim (Chk.gt_val _ 0) (fun _ => rfl) fun _ => rfl

theorem ex1rrBody_lift (x y f0 γ : ℝ) (i : Int) :
    ex1rrBody (.val x) (.val y) (.val f0) (.val γ) i () = (ex1rrBody x y f0 γ i ()).map liftAns := by
  unfold ex1rrBody
  split
  · exact cutIf_lift rfl rfl
  split
  · exact cutIf_lift rfl rfl
  split
  · exact cutIf_lift rfl rfl
  · rfl

theorem ex1rr_lift (w : Int) (x : Arr ℝ) (γ : ℝ) : ex1rrAssess w x.lift (.val γ) = (ex1rrAssess w x γ).map (liftOpt id) := by
  unfold ex1rrAssess
  refine Res.bind_sim (Arr.idx_lift x 0) fun u _ => Res.bind_sim (Arr.idx_lift x 1) fun v _ => ?_
  refine Res.bind_sim (rrLoop_sim_unit (ex1rrBody_lift u v (u + v) γ) 3 w) fun p _ => ?_
  obtain ⟨r, i, _⟩ := p
  cases r <;> rfl

theorem ex3Body_lift (x y t : ℝ) (i : Int) : ex3Body (.val x) (.val y) (.val t) i () = (ex3Body x y t i ()).map liftAns := by
  unfold ex3Body
  split
  · exact cutIf_lift rfl rfl
  split
  · exact cutIf_lift rfl rfl
  split
  · exact cutIf_lift rfl rfl
  split
  · exact cutIf_lift rfl rfl
  · rfl

theorem ex3_lift (o : Ex3 ℝ) (x : Arr ℝ) : o.lift.assess x.lift = (o.assess x).map fun p => (p.1.map liftPair, p.2.lift) := by
  unfold Ex3.assess
  refine Res.bind_sim (Arr.idx_lift x 0) fun u _ => Res.bind_sim (Arr.idx_lift x 1) fun v _ => ?_
  exact Res.bind_sim (rrLoop_sim_unit (ex3Body_lift u v o.target) 4 o.idx) fun p _ => rfl

theorem ex4Body_lift (x y f0 γ : ℝ) (i : Int) :
    ex4Body (.val x) (.val y) (.val f0) (.val γ) i () = (ex4Body x y f0 γ i ()).map liftAns := by
  unfold ex4Body
  split
  · exact cutIf_lift rfl rfl
  split
  · exact cutIf_lift rfl rfl
  split
  · exact cutIf_lift rfl rfl
  split
  · exact cutIf_lift rfl rfl
  · rfl

theorem ex4_lift (w : Int) (x : Arr ℝ) (γ : ℝ) : ex4Assess w x.lift (.val γ) = (ex4Assess w x γ).map (liftOpt id) := by
  unfold ex4Assess
  refine Res.bind_sim (Arr.idx_lift x 0) fun u _ => Res.bind_sim (Arr.idx_lift x 1) fun v _ => ?_
  refine Res.bind_sim (rrLoop_sim_unit (ex4Body_lift u v _ γ) 4 w) fun p _ => ?_
  obtain ⟨r, i, _⟩ := p
  cases r <;> rfl

/-! ### quasicvx -/

theorem qcvxBody_lift (s l γ : ℝ) (i : Int) : qcvxBody (.val s) (.val l) (.val γ) i () = (qcvxBody s l γ i ()).map liftAns := by
  unfold qcvxBody
  split
  · exact ite_sim (Chk.gt_val _ 0) (fun _ => rfl) fun _ => rfl
  split
  · exact ite_sim (Chk.gt_val _ 0) (fun _ => rfl) fun _ => rfl
  · rfl

theorem Chk.exp_val (a : ℝ) : Scalar.exp (Chk.val a) = .val (Real.exp a) := rfl

theorem qcvx_lift (w : QcvxOracle) (x : Arr ℝ) (γ : ℝ) : w.assess x.lift (.val γ) = (w.assess x γ).map (liftOpt id) := by
  unfold QcvxOracle.assess
  refine Res.bind_sim (Arr.idx_lift x 0) fun u _ => Res.bind_sim (Arr.idx_lift x 1) fun v _ => ?_
  refine Res.bind_sim (rrLoop_sim_unit (qcvxBody_lift u v γ) 2 w.idx) fun p _ => ?_
  obtain ⟨r, i, _⟩ := p
  cases r
  · simp only [Option.map_none]
    rw [Chk.exp_val, Chk.div_val _ (Real.exp_ne_zero v)]
    rfl
  · rfl

/-! ### SVM -/

theorem svmSearch_lift (o : SvmOracle ℝ) (w : Arr ℝ) (b : ℝ) :
    o.lift.search w.lift (.val b) = (o.search w b).map fun p => (p.1.map .val, p.2) := by
  unfold SvmOracle.search
  refine forRange_sim' (L := fun p : Option ℝ × Nat => (p.1.map Chk.val, p.2)) (s := (none, 0)) fun i p => ?_
  obtain ⟨m, j⟩ := p
  refine Res.bind_sim (L := id) (x := Res.ofOption o.labels[i]?) (by cases h : o.labels[i]? <;> simp [SvmOracle.lift, h, Res.map, Res.ofOption])
    fun y _ => ?_
  refine Res.bind_sim (Arr.row_lift o.data i) fun xi _ => Res.bind_sim (Arr.dot_lift w xi) fun d _ => ?_
  refine ite_sim ?_ (fun _ => rfl) fun _ => rfl
  cases m with
  | none => rfl
  | some m => exact Chk.lt_val _ _

theorem svm_lift (o : SvmOracle ℝ) (x : Arr ℝ) (γ : ℝ) : o.lift.assess x.lift (.val γ) = (o.assess x γ).map (liftOpt SvmOracle.lift) := by
  unfold SvmOracle.assess
  refine Res.bind_sim (mapM_sim (L := Chk.val) (fun i => Arr.idx_lift x i) _) fun wd _ => ?_
  refine Res.bind_sim (Arr.idx_lift x _) fun b _ => ?_
  refine Res.bind_sim (svmSearch_lift o ⟨wd, o.nfeat, 0⟩ b) fun p _ => ?_
  obtain ⟨m, j⟩ := p
  cases m with
  | none => simp only [Option.map_none, Arr.new_lift]; rfl
  | some m =>
    simp only [Option.map_some, Arr.new_lift]
    refine ite_sim (Chk.ge_val m 1) (fun _ => rfl) fun _ => ?_
    refine Res.bind_sim (L := id) (x := Res.ofOption o.labels[j]?) (by cases h : o.labels[j]? <;> simp [SvmOracle.lift, h, Res.map, Res.ofOption])
      fun y _ => ?_
    refine Res.bind_sim (Arr.row_lift o.data j) fun xi _ => ?_
    have key : Arr.ofList (xi.lift.data.map (fun x => -(Scalar.ofInt y : Chk) * x) ++ [-(Scalar.ofInt y : Chk)]) =
        (Arr.ofList (xi.data.map (fun x => -(Scalar.ofInt y : ℝ) * x) ++ [-(Scalar.ofInt y : ℝ)])).lift := by
      rw [← Arr.ofList_lift, List.map_append, List.map_map]
      simp only [Arr.lift, List.map_map]
      rfl
    exact congrArg (fun g => (Res.ok (((g, (⟨.val m⟩ : SingleCut Chk)), true), Chk.val m, o.lift) : Res _)) key

/-! ### max-cut -/

theorem signs_lift (x : Arr ℝ) : maxcutSigns x.lift = (maxcutSigns x).lift :=
  Arr.map_lift x fun u _ => by
    rw [Chk.zero_val, Chk.ge_val]
    split <;> rfl

theorem cutValue_lift (o : MaxcutOracle ℝ) (x : Arr ℝ) : o.lift.cutValue x.lift = (o.cutValue x).map .val := by
  unfold MaxcutOracle.cutValue
  refine forRange_sim' (L := Chk.val) (s := (0 : ℝ)) fun i s => forRange_sim' (L := Chk.val) fun j s => ?_
  refine Res.bind_sim (Arr.idx_lift x i) fun u _ => Res.bind_sim (Arr.idx_lift x j) fun v _ => ?_
  refine ite_sim (by rw [Chk.beq_val]) (fun _ => ?_) fun _ => rfl
  exact Res.bind_sim (Arr.idx_lift o.weights _) fun w _ => rfl

theorem maxcutGrad_lift (o : MaxcutOracle ℝ) (x : Arr ℝ) : o.lift.grad x.lift = (o.grad x).map Arr.lift := by
  unfold MaxcutOracle.grad
  rw [Arr.new_lift]
  refine Res.bind_sim (L := Arr.lift) ?_ fun g _ => by
    rw [show (nat 2 : Chk) = .val (nat 2 : ℝ) from rfl, Arr.smul_lift]; rfl
  refine forRange_sim' (L := Arr.lift) fun i s => forRange_sim' (L := Arr.lift) fun j s => ?_
  refine Res.bind_sim (Arr.idx_lift x i) fun u _ => Res.bind_sim (Arr.idx_lift x j) fun v _ => ?_
  refine ite_sim (by rw [Chk.beq_val]) (fun _ => ?_) fun _ => rfl
  exact Res.bind_sim (Arr.idx_lift o.weights _) fun w _ => Res.bind_sim (Arr.idx_lift s _) fun t _ => Arr.setIdx_lift s i _

theorem maxcut_lift (o : MaxcutOracle ℝ) (x : Arr ℝ) (γ : ℝ) :
    o.lift.assess x.lift (.val γ) = (o.assess x γ).map (liftOpt MaxcutOracle.lift) := by
  unfold MaxcutOracle.assess
  simp only [signs_lift]
  refine Res.bind_sim (cutValue_lift o _) fun c _ => Res.bind_sim (maxcutGrad_lift o _) fun g _ => ?_
  rw [Arr.neg_lift]
  exact ite_sim (Chk.gt_val c γ) (fun _ => rfl) fun _ => rfl

/-! ### low-pass -/

theorem negVec_lift (a : Arr ℝ) : negVec a.lift = (negVec a).lift := by
  unfold negVec
  rw [← Arr.ofList_lift]
  simp [Arr.lift, Function.comp_def]

theorem passBody_lift (o : LowpassOracle ℝ) (x : Arr ℝ) (i : Int) :
    o.lift.passBody x.lift i () = (o.passBody x i ()).map fun p => (p.1.map liftPair, p.2) := by
  unfold LowpassOracle.passBody
  refine Res.bind_sim (nthI32_map Arr.lift o.spectrum i) fun col _ => Res.bind_sim (Arr.dot_lift col x) fun v _ => ?_
  refine ite_sim (Chk.gt_val _ _) (fun _ => rfl) fun _ => ite_sim (Chk.lt_val _ _) (fun _ => ?_) fun _ => rfl
  rw [negVec_lift]; rfl

theorem stopBody_lift (o : LowpassOracle ℝ) (x : Arr ℝ) (i : Int) (st : Option ℝ × Int) :
    o.lift.stopBody x.lift i (st.1.map .val, st.2) =
      (o.stopBody x i st).map fun p => (p.1.map liftPair, (p.2.1.map .val, p.2.2)) := by
  unfold LowpassOracle.stopBody
  refine Res.bind_sim (nthI32_map Arr.lift o.spectrum i) fun col _ => Res.bind_sim (Arr.dot_lift col x) fun v _ => ?_
  refine ite_sim (Chk.gt_val _ _) (fun _ => rfl) fun _ => ite_sim (Chk.lt_val _ _) (fun _ => ?_) fun _ => ?_
  · rw [negVec_lift]; rfl
  · refine ite_sim ?_ (fun _ => rfl) fun _ => rfl
    obtain ⟨m, k⟩ := st
    cases m with
    | none => rfl
    | some m => exact Chk.gt_val _ _

theorem transBody_lift (o : LowpassOracle ℝ) (x : Arr ℝ) (i : Int) :
    o.lift.transBody x.lift i () = (o.transBody x i ()).map fun p => (p.1.map liftPair, p.2) := by
  unfold LowpassOracle.transBody
  refine Res.bind_sim (nthI32_map Arr.lift o.spectrum i) fun col _ => Res.bind_sim (Arr.dot_lift col x) fun v _ => ?_
  refine ite_sim (Chk.lt_val _ _) (fun _ => ?_) fun _ => rfl
  rw [negVec_lift]; rfl

theorem lowpassFeas_lift (o : LowpassOracle ℝ) (x : Arr ℝ) :
    o.lift.assessFeas x.lift = (o.assessFeas x).map fun p => (p.1.map liftPair, p.2.lift) := by
  unfold LowpassOracle.assessFeas
  have hlen : o.lift.spectrum.length = o.spectrum.length := by simp [LowpassOracle.lift]
  simp only [hlen]
  refine Res.bind_sim (nthI32_map Arr.lift o.spectrum 0) fun first _ => ?_
  refine Res.bind_sim (rrLoop_sim_unit (passBody_lift { o with moreAlt := true } x) _ _) fun p _ => ?_
  obtain ⟨r, i1, _⟩ := p
  cases r with
  | some c => rfl
  | none =>
    refine Res.bind_sim (rrLoop_sim (L := fun st : Option ℝ × Int => (st.1.map Chk.val, st.2)) (s := (none, -1))
      (stopBody_lift { o with moreAlt := true, idx1 := i1 } x) _ _) fun p _ => ?_
    obtain ⟨r, i3, st⟩ := p
    cases r with
    | some c => rfl
    | none =>
      refine Res.bind_sim (rrLoop_sim_unit (transBody_lift { o with moreAlt := true, idx1 := i1, idx3 := i3, fmax := st.1, kmax := st.2 } x) _ _) fun p _ => ?_
      obtain ⟨r, i2, _⟩ := p
      cases r with
      | some c => rfl
      | none =>
        refine Res.bind_sim (Arr.idx_lift x 0) fun x0 _ => ?_
        refine ite_sim (Chk.lt_val _ _) (fun _ => ?_) fun _ => rfl
        rw [Arr.lift_len, Arr.new_lift]
        exact Res.bind_sim (Arr.setIdx_lift (Arr.new first.len) 0 (-1)) fun g _ => rfl

theorem lowpass_lift (o : LowpassOracle ℝ) (x : Arr ℝ) (γ : ℝ) :
    o.lift.assess x.lift (.val γ) = (o.assess x γ).map (liftOpt LowpassOracle.lift) := by
  unfold LowpassOracle.assess
  refine Res.bind_sim (lowpassFeas_lift { o with spSq := γ } x) fun p _ => ?_
  obtain ⟨r, o1⟩ := p
  cases r with
  | some c => rfl
  | none =>
    refine Res.bind_sim (nthI32_map Arr.lift o1.spectrum o1.kmax) fun col _ => ?_
    refine Res.bind_sim (L := Chk.val) (x := Res.ofOption o1.fmax) (by cases h : o1.fmax <;> simp [LowpassOracle.lift, h, Res.map, Res.ofOption])
      fun m _ => rfl

theorem linspace_lift (a b : ℝ) (n : Nat) : Arr.linspace (.val a) (.val b) n = (Arr.linspace a b n).map Arr.lift := by
  unfold Arr.linspace
  rw [Arr.new_lift]
  refine ite_sim rfl (fun _ => rfl) fun h0 => ite_sim rfl (fun _ => Arr.setIdx_lift _ 0 a) fun h1 => ?_
  have hn : (nat (n - 1) : ℝ) ≠ 0 := by
    simp only [beq_eq_false_iff_ne] at h0 h1
    have : (n - 1 : Nat) ≠ 0 := by omega
    exact_mod_cast this
  have e : (Chk.val b - Chk.val a) / nat (n - 1) = .val ((b - a) / nat (n - 1)) := by
    rw [show (nat (n - 1) : Chk) = .val (nat (n - 1) : ℝ) from rfl, Chk.sub_val, Chk.div_val _ hn]
  simp only [e]
  exact forRange_sim' (L := Arr.lift) fun i x => Arr.setIdx_lift x i _

theorem lowpassRow_lift (n : Nat) (om : ℝ) : lowpassRow n (.val om) = (lowpassRow n om).map Arr.lift := by
  unfold lowpassRow
  rw [Arr.new_lift]
  refine Res.bind_sim (Arr.setIdx_lift _ 0 1) fun row _ => ?_
  exact forRange_sim' (L := Arr.lift) fun j row => Arr.setIdx_lift row j _

theorem lowpassNew_lift (n : Nat) (wp ws lp up sp : ℝ) :
    LowpassOracle.new n (.val wp) (.val ws) (.val lp) (.val up) (.val sp) =
      (LowpassOracle.new n wp ws lp up sp).map LowpassOracle.lift := by
  unfold LowpassOracle.new
  refine Res.bind_sim (linspace_lift 0 Real.pi (15 * n)) fun om _ => ?_
  refine Res.bind_sim (mapM_sim (L := Arr.lift) (fun i => ?_) _) fun sp _ => ?_
  · exact Res.bind_sim (Arr.idx_lift om i) fun u _ => lowpassRow_lift n u
  · exact Res.assert_sim fun _ => rfl

theorem Chk.powf_val {a : ℝ} (h : 0 < a) (b : ℝ) : Scalar.powf (Chk.val a) (.val b) = .val (a ^ b) := by
  show (if 0 < a then Chk.val (a ^ b) else .bad) = _
  rw [if_pos h]

theorem Chk.log10_val {a : ℝ} (h : 0 < a) : Scalar.log10 (Chk.val a) = .val (Real.logb 10 a) := by
  show Chk.mapIf _ _ _ _ = _
  simp [Chk.mapIf, h]

theorem lowpassCase_lift (n : Nat) : createLowpassCase (α := Chk) n = (createLowpassCase (α := ℝ) n).map LowpassOracle.lift := by
  unfold createLowpassCase
  have d1 : (0 : ℝ) < dec 25 3 * Real.pi := by simp [dec]; positivity
  have d2 : (0 : ℝ) < dec 125 3 * Real.pi := by simp [dec]; positivity
  have ten : (0 : ℝ) < nat 10 := by norm_num [nat]
  have tw : (nat 20 : ℝ) ≠ 0 := by norm_num [nat]
  have e1 : Scalar.log10 (dec 25 3 * Scalar.pi : Chk) = .val (Real.logb 10 (dec 25 3 * Real.pi)) := Chk.log10_val d1
  have e2 : Scalar.log10 (dec 125 3 * Scalar.pi : Chk) = .val (Real.logb 10 (dec 125 3 * Real.pi)) := Chk.log10_val d2
  have n20 : (nat 20 : Chk) = .val (nat 20 : ℝ) := rfl
  have n10 : (nat 10 : Chk) = .val (nat 10 : ℝ) := rfl
  simp only [e1, e2, n20, n10]
  simp only [Chk.mul_val, Chk.neg_val, Chk.div_val _ tw, Chk.powf_val ten, Chk.dec_val]
  exact lowpassNew_lift n _ _ _ _ _

/-! ### profit -/

theorem mul_pos_of {p x q : Arr ℝ} (hp : ∀ v ∈ p.data, 0 < v) (hx : ∀ v ∈ x.data, 0 < v) (h : p.mul x = .ok q) :
    ∀ v ∈ q.data, 0 < v := by
  simp only [Arr.mul, Arr.zipWith, Res.bind_eq_ok] at h
  obtain ⟨_, -, h⟩ := h
  simp only [Res.ok.injEq] at h
  subst h
  intro v hv
  obtain ⟨i, hi, rfl⟩ := List.getElem_of_mem hv
  simp only [List.getElem_zipWith]
  exact mul_pos (hp _ (List.getElem_mem _)) (hx _ (List.getElem_mem _))

theorem idx_mem {q : Arr ℝ} {i : Nat} {v : ℝ} (h : q.idx i = .ok v) : v ∈ q.data := by
  simp only [Arr.idx] at h
  cases e : q.data[i]? with
  | none => rw [e] at h; exact absurd h (by simp [Res.ofOption])
  | some u =>
    rw [e] at h
    simp only [Res.ofOption, Res.ok.injEq] at h
    exact h ▸ List.mem_of_getElem? e

theorem Chk.ln_val {a : ℝ} (h : 0 < a) : Scalar.ln (Chk.val a) = .val (Real.log a) := by
  show Chk.mapIf _ _ _ _ = _
  simp [Chk.mapIf, h]

/-- the profit oracle's state and incumbent for which all computations are defined -/
def ProfitOracle.Def (o : ProfitOracle ℝ) (γ : ℝ) : Prop := 0 ≤ γ ∧ ∀ v ∈ o.priceOut.data, 0 < v

theorem profitBody_lift {o : ProfitOracle ℝ} {γ : ℝ} (ho : o.Def γ) (y : Arr ℝ) (i : Int) (c : ProfitCache ℝ) :
    o.lift.body y.lift (.val γ) i c.lift =
      (o.body y γ i c).map fun p => (p.1.map (fun c => (c.1.lift, Chk.val c.2)), p.2.lift) := by
  unfold ProfitOracle.body
  split
  · refine Res.bind_sim (Arr.idx_lift y 0) fun y0 _ => ?_
    exact ite_sim (Chk.gt_val _ _) (fun _ => rfl) fun _ => rfl
  split
  · refine Res.bind_sim (Arr.dot_lift o.elasticities y) fun d _ => ?_
    have he : y.lift.map Scalar.exp = (y.map Scalar.exp).lift := Arr.map_lift y fun _ _ => rfl
    rw [he]
    refine Res.bind_sim (Arr.mul_lift o.priceOut _) fun q hq => ?_
    have hpos := mul_pos_of ho.2 (fun v hv => by
      obtain ⟨u, -, rfl⟩ := List.mem_map.1 hv
      exact Real.exp_pos u) hq
    refine Res.bind_sim (Arr.idx_lift q 0) fun q0 h0 => Res.bind_sim (Arr.idx_lift q 1) fun q1 h1 => ?_
    have hp : 0 < γ + (q0 + q1) := by
      have := hpos _ (idx_mem h0)
      have := hpos _ (idx_mem h1)
      have := ho.1
      linarith
    simp only [Chk.add_val, Chk.ln_val hp, Arr.divScalar_lift q hp.ne']
    refine ite_sim (Chk.gt_val _ _) (fun _ => ?_) fun _ => rfl
    exact Res.bind_sim (Arr.sub_lift _ o.elasticities) fun g _ => rfl
  · rfl

theorem profitFeas_lift {o : ProfitOracle ℝ} {γ : ℝ} (ho : o.Def γ) (y : Arr ℝ) :
    o.lift.assessFeas y.lift (.val γ) =
      (o.assessFeas y γ).map fun p => (p.1.map (fun c => (c.1.lift, Chk.val c.2)), p.2.lift) := by
  unfold ProfitOracle.assessFeas
  exact Res.bind_sim (rrLoop_sim (L := ProfitCache.lift) (profitBody_lift ho y) 2 o.idx o.cache) fun p _ => rfl

theorem profit_lift {o : ProfitOracle ℝ} {γ : ℝ} (ho : o.Def γ) (y : Arr ℝ) :
    o.lift.assess y.lift (.val γ) = (o.assess y γ).map (liftOpt ProfitOracle.lift) := by
  unfold ProfitOracle.assess
  refine Res.bind_sim (profitFeas_lift ho y) fun p _ => ?_
  obtain ⟨r, o1⟩ := p
  cases r with
  | some c => rfl
  | none =>
    have e : Scalar.exp o1.lift.cache.logCobb = .val (Real.exp o1.cache.logCobb) := rfl
    simp only [Option.map_none, e]
    have e2 : o1.lift.cache.q.divScalar (.val (Real.exp o1.cache.logCobb)) =
        (o1.cache.q.divScalar (Real.exp o1.cache.logCobb)).lift := Arr.divScalar_lift _ (Real.exp_ne_zero _)
    rw [e2]
    exact Res.bind_sim (Arr.sub_lift _ o1.elasticities) fun g _ => rfl

theorem profitWorst_lift (o : ProfitRbOracle ℝ) (y : Arr ℝ) : o.lift.worst y.lift = (o.worst y).map Arr.lift := by
  unfold ProfitRbOracle.worst
  refine forRange_sim (L := Arr.lift) (s := o.elasticities) (fun _ _ => True) trivial fun i a _ hi _ => ⟨?_, fun _ _ => trivial⟩
  refine Res.bind_sim (L := Chk.val) (x := Res.ofOption [o.uie0, o.uie1][i]?)
    (by interval_cases i <;> rfl) fun u _ => ?_
  refine Res.bind_sim (Arr.idx_lift y i) fun yi _ => Res.bind_sim (Arr.idx_lift a i) fun t _ => ?_
  have : (if Scalar.gt (Chk.val yi) 0 = true then -Chk.val u else Chk.val u) = .val (if Scalar.gt yi 0 = true then -u else u) := by
    rw [Chk.zero_val, Chk.gt_val]; split <;> rfl
  rw [this]
  exact Arr.setIdx_lift a i _

theorem profitRb_lift {o : ProfitRbOracle ℝ} {γ : ℝ} (ho : o.omega.Def γ) (y : Arr ℝ) :
    o.lift.assess y.lift (.val γ) = (o.assess y γ).map (liftOpt ProfitRbOracle.lift) := by
  unfold ProfitRbOracle.assess
  refine Res.bind_sim (profitWorst_lift o y) fun a _ => ?_
  exact Res.bind_sim (profit_lift (o := { o.omega with elasticities := a }) ho y) fun p _ => rfl

theorem round_nonneg {x : ℝ} (hx : 0 < x) : 0 ≤ (Scalar.round x : ℝ) := by
  have h0 : Scalar.round x = ((⌊x + 1 / 2⌋₊ : ℕ) : ℝ) := by
    show (if (0:ℝ) ≤ x then _ else _) = _
    rw [if_pos hx.le]
    exact (natCast_floor_eq_intCast_floor (by linarith)).symm
  rw [h0]; positivity

theorem profitRound_lift {y : Arr ℝ} (hy : y.data.length = 2) : profitRound y.lift = (profitRound y).map Arr.lift := by
  unfold profitRound
  have he : y.lift.map (fun v => Scalar.round (Scalar.exp v)) = (y.map fun v => Scalar.round (Scalar.exp v)).lift :=
    Arr.map_lift y fun _ _ => rfl
  simp only [he]
  set x : Arr ℝ := y.map fun v => Scalar.round (Scalar.exp v) with hx
  have hx0 : ∀ v ∈ x.data, 0 ≤ v := fun v hv => by
    obtain ⟨u, -, rfl⟩ := List.mem_map.1 hv
    exact round_nonneg (Real.exp_pos u)
  have hxl : x.data.length = 2 := by simp [hx, Arr.map, hy]
  clear_value x
  obtain ⟨d, r, c⟩ := x
  obtain ⟨a, b, rfl⟩ := List.length_eq_two.1 hxl
  have ha : 0 ≤ a := hx0 a (by simp)
  have hb : 0 ≤ b := hx0 b (by simp)
  have pos : ∀ t : ℝ, 0 ≤ t → t ≠ 0 → 0 < t := fun t h1 h2 => lt_of_le_of_ne h1 (Ne.symm h2)
  have lg : ∀ u v : ℝ, 0 < u → 0 < v → (Arr.lift ⟨[u, v], r, c⟩).map Scalar.ln = (Arr.map Scalar.ln ⟨[u, v], r, c⟩).lift :=
    fun u v hu hv => Arr.map_lift _ fun t ht => by
      rcases List.mem_pair.1 ht with rfl | rfl
      · exact Chk.ln_val hu
      · exact Chk.ln_val hv
  by_cases h0 : a = 0 <;> by_cases h1 : b = 0
  · simp [Arr.idx, Arr.setIdx, Arr.lift, Res.ofOption, Res.map, h0, h1, Arr.map, Chk.ln_val]
  · simp [Arr.idx, Arr.setIdx, Arr.lift, Res.ofOption, Res.map, h0, h1, Arr.map, Chk.ln_val, pos b hb h1]
  · simp [Arr.idx, Arr.setIdx, Arr.lift, Res.ofOption, Res.map, h0, h1, Arr.map, Chk.ln_val, pos a ha h0]
  · simp [Arr.idx, Arr.setIdx, Arr.lift, Res.ofOption, Res.map, h0, h1, Arr.map, Chk.ln_val, pos a ha h0, pos b hb h1]

theorem cutAtYd_lift {o : ProfitOracleQ ℝ} {γ : ℝ} (ho : o.omega.Def γ) (y : Arr ℝ) (retry : Bool) :
    o.lift.cutAtYd y.lift (.val γ) retry = (o.cutAtYd y γ retry).map liftOptQ := by
  unfold ProfitOracleQ.cutAtYd
  refine Res.bind_sim (profit_lift ho o.yd) fun p _ => ?_
  refine Res.bind_sim (Arr.sub_lift o.yd y) fun d _ => ?_
  exact Res.bind_sim (Arr.dot_lift p.1.1.1 d) fun t _ => rfl

theorem profitFeas_price {o o' : ProfitOracle ℝ} {y : Arr ℝ} {γ : ℝ} {r} (h : o.assessFeas y γ = .ok (r, o')) :
    o'.priceOut = o.priceOut := by
  simp only [ProfitOracle.assessFeas, Res.bind_eq_ok] at h
  obtain ⟨p, -, h⟩ := h
  simp only [Res.ok.injEq, Prod.mk.injEq] at h
  rw [← h.2]

theorem profitQ_lift {o : ProfitOracleQ ℝ} {γ : ℝ} (ho : o.omega.Def γ) {y : Arr ℝ} (hy : y.data.length = 2) (retry : Bool) :
    o.lift.assess y.lift (.val γ) retry = (o.assess y γ retry).map liftOptQ := by
  unfold ProfitOracleQ.assess
  cases retry
  · refine Res.bind_sim (profitFeas_lift ho y) fun p hp => ?_
    obtain ⟨r, o1⟩ := p
    cases r with
    | some c => rfl
    | none =>
      refine Res.bind_sim (profitRound_lift hy) fun yd _ => ?_
      refine cutAtYd_lift (o := ⟨o1, yd⟩) (γ := γ) ⟨ho.1, ?_⟩ y false
      show ∀ v ∈ o1.priceOut.data, _
      rw [profitFeas_price hp]
      exact ho.2
  · exact cutAtYd_lift ho y true

end Ellalgo

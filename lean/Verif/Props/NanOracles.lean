import Verif.Props.NanNum
import Verif.Props.NanLmi
import Verif.Lib.RoundRobinLemmas
import Verif.Model.Quasicvx
import Verif.Model.Examples
import Verif.Lib.ArrLemmas
import Verif.Model.Svm
import Verif.Model.Lowpass
import Verif.Model.Profit

/-! C81: the oracles of the crate at a centre made of NaN. -/

namespace Ellalgo
variable {α : Type} [Scalar α] {N : α → Prop}

omit [Scalar α] in
theorem pair_nan [Zero α] {x : Arr α} (hx : x.IsVecShape 2) (h : x.AllNan N) :
    ∃ a b, x.idx 0 = .ok a ∧ x.idx 1 = .ok b ∧ N a ∧ N b :=
  ⟨_, _, hx.isVec.idx (by omega), hx.isVec.idx (by omega), h _ (List.mem_of_getElem? (hx.isVec.get 0 (by omega))),
    h _ (List.mem_of_getElem? (hx.isVec.get 1 (by omega)))⟩

theorem cutIf_nan (hN : NanLaws N) {f : α} (h : N f) (g : List α) : cutIf f g = .ok (none, ()) := by
  simp [cutIf, Scalar.gt, hN.lt_right _ h]

theorem rrLoop_none {β : Type} {lo hi : Int} {body : Int → Unit → Res (Option β × Unit)} {idx : Int} {k : Nat}
    (hk : k = (hi - lo).toNat) (hlo : lo - 1 ≤ idx) (hhi : lo < hi → idx < hi)
    (hb : ∀ i, lo ≤ i → i < hi → body i () = .ok (none, ())) :
    ∃ idx', rrLoop lo hi body k idx () = .ok (none, idx', ()) := by
  subst hk
  obtain ⟨r, idx', h1, -, -, -, h2⟩ := rrLoop_test (t := fun _ => none) hlo hhi hb
  cases r with
  | none => exact ⟨idx', h1⟩
  | some b => have := (h2 b rfl).2.2; simp at this

/-- **C81** (example oracles)  At a centre made of NaN the optimisation examples answer "better point found" and set the
target to NaN, and the feasibility example answers "feasible", in every state of their round-robin counters. -/
theorem C81_examples_accept_nan (hN : NanLaws N) (x : Arr α) (hx : x.IsVecShape 2) (h : x.AllNan N) (γ : α) :
    (∃ γ', ex1Assess () x γ = .ok (((Arr.ofList [-1, -1], ⟨0⟩), true), γ', ()) ∧ N γ') ∧
    (∀ i : Int, -1 ≤ i → i < 3 →
      ∃ γ' i', ex1rrAssess i x γ = .ok (((Arr.ofList [-1, -1], ⟨0⟩), true), γ', i') ∧ N γ') ∧
    (∀ o : Ex3 α, -1 ≤ o.idx → o.idx < 4 → ∃ o', o.assess x = .ok (none, o')) ∧
    (∀ i : Int, -1 ≤ i → i < 4 →
      ∃ γ' i', ex4Assess i x γ = .ok (((Arr.ofList [-(nat 2), nat 3], ⟨0⟩), true), γ', i') ∧ N γ') ∧
    (∀ o : QcvxOracle, -1 ≤ o.idx → o.idx < 2 →
      ∃ g γ' o', o.assess x γ = .ok (((g, ⟨0⟩), true), γ', o') ∧ N γ') := by
  obtain ⟨a, b, h0, h1, ha, hb⟩ := pair_nan hx h
  have h01 : N (a + b) := hN.add_left ha _
  refine ⟨⟨a + b, ?_, h01⟩, ?_, ?_, ?_, ?_⟩
  · simp only [ex1Assess, h0, h1, Res.ok_bind, Scalar.gt, hN.lt_right _ (hN.sub_left h01 _),
      hN.lt_right _ (hN.add_left (hN.add_right (-a) hb) 1), hN.lt_right _ (hN.sub_right γ h01), Bool.false_eq_true, if_false]
  · intro i hi1 hi2
    obtain ⟨i', hr⟩ := rrLoop_none (lo := 0) (hi := 3) (body := ex1rrBody a b (a + b) γ) (k := 3) (idx := i) rfl (by omega)
      (by omega) (by
        intro j hj1 hj2
        obtain rfl | rfl | rfl : j = 0 ∨ j = 1 ∨ j = 2 := by omega
        · exact cutIf_nan hN (hN.sub_left h01 _) _
        · exact cutIf_nan hN (hN.add_left (hN.add_right _ hb) _) _
        · exact cutIf_nan hN (hN.sub_right _ h01) _)
    exact ⟨a + b, i', by simp only [ex1rrAssess, h0, h1, Res.ok_bind, hr], h01⟩
  · intro o hi1 hi2
    obtain ⟨i', hr⟩ := rrLoop_none (lo := 0) (hi := 4) (body := ex3Body a b o.target) (k := 4) (idx := o.idx) rfl (by omega)
      (by omega) (by
        intro j hj1 hj2
        obtain rfl | rfl | rfl | rfl : j = 0 ∨ j = 1 ∨ j = 2 ∨ j = 3 := by omega
        · exact cutIf_nan hN (hN.sub_left (hN.neg ha) _) _
        · exact cutIf_nan hN (hN.sub_left (hN.neg hb) _) _
        · exact cutIf_nan hN (hN.sub_left h01 _) _
        · exact cutIf_nan hN (hN.sub_left (hN.sub_left (hN.mul_right _ ha) _) _) _)
    exact ⟨{ o with idx := i' }, by simp only [Ex3.assess, h0, h1, Res.ok_bind, hr]⟩
  · intro i hi1 hi2
    have hf : N (nat 2 * a - nat 3 * b) := hN.sub_left (hN.mul_right _ ha) _
    obtain ⟨i', hr⟩ := rrLoop_none (lo := 0) (hi := 4) (body := ex4Body a b (nat 2 * a - nat 3 * b) γ) (k := 4) (idx := i) rfl
      (by omega) (by omega) (by
        intro j hj1 hj2
        obtain rfl | rfl | rfl | rfl : j = 0 ∨ j = 1 ∨ j = 2 ∨ j = 3 := by omega
        · exact cutIf_nan hN (hN.sub_left (hN.neg ha) _) _
        · exact cutIf_nan hN (hN.sub_left (hN.neg hb) _) _
        · exact cutIf_nan hN (hN.sub_left h01 _) _
        · exact cutIf_nan hN (hN.sub_right _ hf) _)
    exact ⟨_, i', by simp only [ex4Assess, h0, h1, Res.ok_bind, hr], hf⟩
  · intro o hi1 hi2
    obtain ⟨i', hr⟩ := rrLoop_none (lo := 0) (hi := 2) (body := qcvxBody a b γ) (k := 2) (idx := o.idx) rfl
      (by omega) (by omega) (by
        intro j hj1 hj2
        obtain rfl | rfl : j = 0 ∨ j = 1 := by omega
        · simp [qcvxBody, Scalar.gt, hN.lt_right _ (hN.sub_right _ hb)]
        · simp [qcvxBody, Scalar.gt, hN.lt_right _ (hN.add_left (hN.neg ha) _)])
    exact ⟨Arr.ofList [-1, a], a / Scalar.exp b, ⟨i'⟩, by simp only [QcvxOracle.assess, h0, h1, Res.ok_bind, hr], hN.div_left ha _⟩

/-- **C81** (support vector machine)  At a centre made of NaN the SVM oracle answers as it does for a perfect classifier:
gradient zero, offset zero, "better point found", target zero. -/
theorem C81_svm_accepts_nan (hN : NanLaws N) {p f : Nat} (hf : 0 < f) (o : SvmOracle α) (hdat : o.data.IsMatShape p f)
    (hlab : o.labels.length = p) (hnf : o.nfeat = f) (x : Arr α) (hx : x.IsVecShape (f + 1)) (h : x.AllNan N) (γ : α) :
    o.assess x γ = .ok (((Arr.new (f + 1), ⟨0⟩), true), 0, o) := by
  have hw : (List.range f).mapM (fun i => x.idx i) = .ok ((List.range f).map x.vec) :=
    mapM_range_ok f fun i hi => hx.isVec.idx (by omega)
  have hb : N (x.vec f) := h _ (List.mem_of_getElem? (hx.isVec.get f (by omega)))
  have hwv : IsVec (⟨(List.range f).map x.vec, f, 0⟩ : Arr α) f x.vec :=
    ⟨rfl, rfl, by simp, fun i hi => by simp [hi]⟩
  have hs : o.search ⟨(List.range f).map x.vec, f, 0⟩ (x.vec f) = .ok (none, 0) := by
    unfold SvmOracle.search
    obtain ⟨s, hs, hp⟩ := forRange_spec (lo := 0) (hi := o.data.rows) (s := ((none, 0) : Option α × Nat))
      (f := fun i (p : Option α × Nat) => do
        let y ← Res.ofOption o.labels[i]?
        let xi ← o.data.row i
        let d ← (⟨(List.range f).map x.vec, f, 0⟩ : Arr α).dot xi
        let margin := Scalar.ofInt y * (d + x.vec f)
        let smaller := match p.1 with
          | none => Scalar.ltInf margin
          | some m => Scalar.lt margin m
        if smaller then .ok (some margin, i) else .ok (p.1, p.2))
      (fun _ (s : Option α × Nat) => s = (none, 0)) (Nat.zero_le _) rfl (by
        rintro i s - hi rfl
        rw [hdat.1] at hi
        obtain ⟨row, e1, e2⟩ := row_spec hdat.isMat hf hi
        refine ⟨_, ?_, rfl⟩
        rw [List.getElem?_eq_getElem (by omega)]
        simp only [Res.ofOption, Res.ok_bind, e1, dot_spec hwv e2,
          hN.ltInf (hN.mul_right (Scalar.ofInt (o.labels[i]'(by omega))) (hN.add_right (sumTo f fun j => x.vec j * o.data.mat i j) hb)),
          Bool.false_eq_true, if_false])
    rw [hp] at hs
    exact hs
  simp only [SvmOracle.assess, hnf, hw, Res.ok_bind, hx.isVec.idx (by omega : f < f + 1), hs]

/-- **C81** (profit maximisation)  At a centre made of NaN the profit oracle answers "better point found", with a NaN target
and a gradient made of NaN. -/
theorem C81_profit_accepts_nan (hN : NanLaws N) (o : ProfitOracle α) (hi : -1 ≤ o.idx) (hi' : o.idx < 2)
    (he : o.elasticities.IsVecShape 2) (hp : o.priceOut.IsVecShape 2) (y : Arr α) (hy : y.IsVecShape 2) (h : y.AllNan N)
    (γ : α) : ∃ g γ' o', o.assess y γ = .ok (((g, ⟨0⟩), true), γ', o') ∧ g.AllNan N ∧ N γ' := by
  obtain ⟨a, b, h0, h1, ha, hb⟩ := pair_nan hy h
  have hnan : ∀ i < 2, N (y.vec i) := fun i hi => h _ (List.mem_of_getElem? (hy.isVec.get i hi))
  obtain ⟨q, hq1, hq2⟩ := hp.isVec.zipWith (hy.isVec.map Scalar.exp) (· * ·)
  have hqn : ∀ i < 2, N (o.priceOut.vec i * Scalar.exp (y.vec i)) := fun i hi => hN.mul_right _ (hN.exp (hnan i hi))
  obtain ⟨d, hd1, hd2⟩ := dot_nan hN he.isVec hy.isVec (Or.inr ⟨0, by omega, hnan 0 (by omega)⟩)
  obtain ⟨r, idx', c, hr1, -, -, hr2, hr3⟩ := rrLoop_spec (lo := 0) (hi := 2) (body := o.body y γ) (idx := o.idx)
    (s := o.cache) (fun V c => V 1 → N c.logCobb ∧ c.q = q ∧ N c.vx) (fun _ _ _ => False) (by omega) (by omega)
    (by simp) (by
      intro V i c hi1 hi2 hV
      obtain rfl | rfl : i = 0 ∨ i = 1 := by omega
      · refine ⟨none, c, ?_, fun _ hv => hV (by simpa using hv), by simp⟩
        simp [ProfitOracle.body, h0, Scalar.gt, hN.lt_right _ (hN.sub_left ha _)]
      · have hvx : N (o.priceOut.vec 0 * Scalar.exp (y.vec 0) + o.priceOut.vec 1 * Scalar.exp (y.vec 1)) :=
          hN.add_left (hqn 0 (by omega)) _
        refine ⟨none, ⟨o.logPScale + d, o.priceOut.vec 0 * Scalar.exp (y.vec 0) + o.priceOut.vec 1 * Scalar.exp (y.vec 1), q⟩,
          ?_, fun _ _ => ⟨hN.add_right _ hd2, rfl, hvx⟩, by simp⟩
        unfold ProfitOracle.body
        simp only [one_ne_zero, if_false, if_true, hd1, Res.ok_bind, Arr.mul, hq1, hq2.idx (by omega : 0 < 2),
          hq2.idx (by omega : 1 < 2), Scalar.gt, hN.lt_right _ (hN.sub_right _ (hN.add_right o.logPScale hd2)),
          Bool.false_eq_true])
    (by intro V W s hVW hV hW; exact hV ((hVW 1 (by omega) (by omega)).2 hW))
  cases r with
  | some b => exact (hr3 b rfl).2.2.elim
  | none =>
    obtain ⟨c1, c2, c3⟩ := hr2 rfl (by omega)
    obtain ⟨g, hg1, hg2⟩ := (hq2.map (· * (1 / Scalar.exp c.logCobb))).zipWith he.isVec (· - ·)
    refine ⟨g, Scalar.exp c.logCobb - c.vx, { o with idx := idx', cache := c }, ?_, ?_, hN.sub_right _ c3⟩
    · have hr1 : rrLoop 0 2 (o.body y γ) 2 o.idx o.cache = .ok (none, idx', c) := hr1
      simp only [ProfitOracle.assess, ProfitOracle.assessFeas, hr1, Res.ok_bind, c2, Arr.sub, Arr.divScalar, hg1]
    · exact hg2.allNan fun i hi => hN.sub_left (hN.mul_left (hqn i hi) _) _

/-- a low-pass oracle with a table of `n`-vectors, bands in order, and counters anywhere in their ranges -/
structure LowpassOracle.Fits (o : LowpassOracle α) (n : Nat) : Prop where
  rows : ∀ col ∈ o.spectrum, col.IsVecShape n
  pass : 0 ≤ o.nwpass
  order : o.nwpass ≤ o.nwstop
  inside : o.nwstop ≤ o.spectrum.length
  grid : 0 < o.spectrum.length
  idx1 : -1 ≤ o.idx1 ∧ (0 < o.nwpass → o.idx1 < o.nwpass)
  idx2 : o.nwpass - 1 ≤ o.idx2 ∧ (o.nwpass < o.nwstop → o.idx2 < o.nwstop)
  idx3 : o.nwstop - 1 ≤ o.idx3 ∧ (o.nwstop < o.spectrum.length → o.idx3 < o.spectrum.length)

theorem lowpass_feas_nan (hN : NanLaws N) {n : Nat} (hn : 0 < n) (o : LowpassOracle α) (ho : o.Fits n) (x : Arr α)
    (hx : x.IsVecShape n) (h : x.AllNan N) : ∃ o', o.assessFeas x = .ok (none, o') ∧ o'.kmax = -1 := by
  have hx0 : N (x.vec 0) := h _ (List.mem_of_getElem? (hx.isVec.get 0 hn))
  have hcol : ∀ i : Int, 0 ≤ i → i < o.spectrum.length → ∃ col v, nthI32 o.spectrum i = .ok col ∧ col.dot x = .ok v ∧ N v := by
    intro i h0 h1
    have hlt : i.toNat < o.spectrum.length := by omega
    obtain ⟨v, hv1, hv2⟩ := dot_nan hN (ho.rows _ (List.getElem_mem hlt)).isVec hx.isVec (Or.inr ⟨0, hn, hx0⟩)
    refine ⟨_, v, ?_, hv1, hv2⟩
    rw [nthI32, if_pos h0, List.getElem?_eq_getElem hlt]
    rfl
  have h1 := ho.idx1
  have h2 := ho.order
  have h3 := ho.inside
  have h4 := ho.pass
  obtain ⟨c0, -, hc0, -, -⟩ := hcol 0 le_rfl (by have := ho.grid; omega)
  obtain ⟨i1, r1⟩ := rrLoop_none (lo := 0) (hi := o.nwpass) (body := ({ o with moreAlt := true } : LowpassOracle α).passBody x)
    (k := o.nwpass.toNat) (idx := o.idx1) (by simp) (by omega) (by omega) (by
      intro i hi1 hi2
      obtain ⟨col, v, e1, e2, e3⟩ := hcol i hi1 (by omega)
      simp only [LowpassOracle.passBody, e1, e2, Res.ok_bind, Scalar.gt, hN.lt_right _ e3, hN.lt_left e3,
        Bool.false_eq_true, if_false])
  obtain ⟨r, i3, st, r2, -, -, r3, r4⟩ := rrLoop_spec (lo := o.nwstop) (hi := (o.spectrum.length : Int))
    (body := ({ o with moreAlt := true, idx1 := i1 } : LowpassOracle α).stopBody x) (idx := o.idx3)
    (s := ((none, -1) : Option α × Int)) (fun _ st => st = (none, -1)) (fun _ _ _ => False)
    (by have := ho.idx3; omega) (by have := ho.idx3; omega) rfl (by
      rintro V i st hi1 hi2 rfl
      obtain ⟨col, v, e1, e2, e3⟩ := hcol i (by omega) hi2
      refine ⟨none, (none, -1), ?_, fun _ => rfl, by simp⟩
      simp only [LowpassOracle.stopBody, e1, e2, Res.ok_bind, Scalar.gt, hN.lt_right _ e3, hN.lt_left e3, gtFmax,
        hN.gtNegInf e3, Bool.false_eq_true, if_false]) (by intro V W s _ h; exact h)
  cases r with
  | some b => exact (r4 b rfl).2.2.elim
  | none =>
    obtain rfl := r3 rfl
    obtain ⟨i2, r5⟩ := rrLoop_none (lo := o.nwpass) (hi := o.nwstop)
      (body := ({ o with moreAlt := true, idx1 := i1, idx3 := i3, fmax := none, kmax := -1 } : LowpassOracle α).transBody x)
      (k := (o.nwstop - o.nwpass).toNat) (idx := o.idx2) rfl (by have := ho.idx2; omega) (by have := ho.idx2; omega) (by
      intro i hi1 hi2
      obtain ⟨col, v, e1, e2, e3⟩ := hcol i (by omega) (by omega)
      simp only [LowpassOracle.transBody, e1, e2, Res.ok_bind, hN.lt_left e3, Bool.false_eq_true, if_false])
    refine ⟨{ o with moreAlt := false, idx1 := i1, idx3 := i3, fmax := none, kmax := -1, idx2 := i2 }, ?_, rfl⟩
    simp only [LowpassOracle.assessFeas, hc0, Res.ok_bind, r1, r2, r5, hx.isVec.idx hn, hN.lt_left hx0,
      Bool.false_eq_true, if_false]

/-- **C81** (filter design)  At a filter made of NaN the low-pass oracle reports that the specification is met; used for
optimisation it panics instead (it looks up the frequency of a largest response that it never recorded). -/
theorem C81_lowpass_on_nan (hN : NanLaws N) {n : Nat} (hn : 0 < n) (o : LowpassOracle α) (ho : o.Fits n) (x : Arr α)
    (hx : x.IsVecShape n) (h : x.AllNan N) (γ : α) :
    (∃ o', o.assessFeas x = .ok (none, o')) ∧ o.assess x γ = .panic := by
  constructor
  · obtain ⟨o', h1, -⟩ := lowpass_feas_nan hN hn o ho x hx h
    exact ⟨o', h1⟩
  · obtain ⟨o', h1, h2⟩ := lowpass_feas_nan hN hn { o with spSq := γ }
      ⟨ho.rows, ho.pass, ho.order, ho.inside, ho.grid, ho.idx1, ho.idx2, ho.idx3⟩ x hx h
    simp only [LowpassOracle.assess, h1, Res.ok_bind, h2]
    rfl

end Ellalgo

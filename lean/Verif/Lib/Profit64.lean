import Verif.Spec.Profit64
import Verif.Lib.Same64
import Verif.Lib.Iter64
import Verif.Lib.RoundRobinLemmas
import Verif.Props.RoundedProfit

/-! The profit oracles in any arithmetic; logarithm and exponential in `f64`. -/

namespace Ellalgo
open Matrix

section generic
variable {α : Type} [Scalar α] {o : ProfitOracle α} {y : Arr α}

theorem pairAny_shape (a b : α) : (Arr.ofList [a, b]).IsVecShape 2 := ⟨rfl, rfl, rfl⟩

/-- one query of `assess_feas` in any arithmetic -/
theorem profit_feas_any (ho : o.Shaped) (hy : y.IsVecShape 2) (γ : α) :
    ∃ r o', o.assessFeas y γ = .ok (r, o') ∧ o'.Shaped ∧ o.SameData o' ∧
      (r = none → Scalar.gt (y.vec 0 - o.logK) 0 = false ∧ Scalar.gt (Scalar.ln (γ + o.costOf y) - o.logOf y) 0 = false ∧
        o'.cache.logCobb = o.logOf y ∧ o'.cache.vx = o.costOf y ∧ o'.cache.q.IsVecShape 2) ∧
      ∀ g b, r = some (g, b) → Scalar.gt b 0 = true ∧ g.IsVecShape 2 ∧
        (b = y.vec 0 - o.logK ∨ b = Scalar.ln (γ + o.costOf y) - o.logOf y) := by
  have hy0 : y.idx 0 = .ok (y.vec 0) := hy.isVec.idx (by norm_num)
  obtain ⟨q, hq, hqv⟩ := ho.cost.isVec.zipWith (hy.isVec.map Scalar.exp) (· * ·)
  have hq0 : q.idx 0 = .ok (o.priceOut.vec 0 * Scalar.exp (y.vec 0)) := hqv.idx (by norm_num)
  have hq1 : q.idx 1 = .ok (o.priceOut.vec 1 * Scalar.exp (y.vec 1)) := hqv.idx (by norm_num)
  have hdot := dot_spec ho.elas.isVec hy.isVec
  have hq' : o.priceOut.mul (y.map Scalar.exp) = .ok q := hq
  obtain ⟨g1, hg1, hg1v⟩ := (hqv.map fun v => v * (1 / (γ + o.costOf y))).zipWith ho.elas.isVec (· - ·)
  have hg1' : (q.divScalar (γ + o.costOf y)).sub o.elasticities = .ok g1 := hg1
  obtain ⟨r, idx', c', hr, hin, -, hnone, hsome⟩ := rrLoop_spec (lo := 0) (hi := 2) (body := o.body y γ)
    (fun V c => (V 0 → Scalar.gt (y.vec 0 - o.logK) 0 = false) ∧
      (V 1 → Scalar.gt (Scalar.ln (γ + o.costOf y) - o.logOf y) 0 = false ∧ c.logCobb = o.logOf y ∧ c.vx = o.costOf y ∧ c.q.IsVecShape 2))
    (fun _ b _ => Scalar.gt b.2 0 = true ∧ b.1.IsVecShape 2 ∧
      (b.2 = y.vec 0 - o.logK ∨ b.2 = Scalar.ln (γ + o.costOf y) - o.logOf y))
    (idx := o.idx) (s := o.cache) (by linarith [ho.lo]) (fun _ => ho.hi)
    ⟨fun h => h.elim, fun h => h.elim⟩
    (by
      intro V i c h1 h2 ⟨hV0, hV1⟩
      obtain rfl | rfl : i = 0 ∨ i = 1 := by omega
      · simp only [ProfitOracle.body, if_true, hy0, Res.ok_bind]
        split
        · rename_i hf
          refine ⟨_, _, rfl, by simp, ?_⟩
          rintro b hb
          obtain rfl : _ = b := by simpa using hb
          exact ⟨hf, pairAny_shape _ _, Or.inl rfl⟩
        · rename_i hf
          refine ⟨_, _, rfl, ?_, by simp⟩
          rintro -
          exact ⟨fun _ => Bool.eq_false_iff.2 hf, fun hv => hV1 (by simpa using hv)⟩
      · have e1 : o.priceOut.vec 0 * Scalar.exp (y.vec 0) + o.priceOut.vec 1 * Scalar.exp (y.vec 1) = o.costOf y := rfl
        have e2 : o.logPScale + (sumTo 2 fun j => o.elasticities.vec j * y.vec j) = o.logOf y := rfl
        simp only [ProfitOracle.body, one_ne_zero, if_false, if_true, hdot, hq', hq0, hq1, Res.ok_bind, e1, e2]
        split
        · rename_i hf
          rw [hg1', Res.ok_bind]
          refine ⟨_, _, rfl, by simp, ?_⟩
          rintro b hb
          obtain rfl : _ = b := by simpa using hb
          exact ⟨hf, hg1v.shape, Or.inr rfl⟩
        · rename_i hf
          refine ⟨_, _, rfl, ?_, by simp⟩
          rintro -
          exact ⟨fun hv => hV0 (by simpa using hv), fun _ => ⟨Bool.eq_false_iff.2 hf, rfl, rfl, hqv.shape⟩⟩)
    (by
      rintro V W c hVW ⟨a, b⟩
      exact ⟨fun hw => a ((hVW 0 (by norm_num) (by norm_num)).2 hw),
        fun hw => b ((hVW 1 (by norm_num) (by norm_num)).2 hw)⟩)
  have hr' : rrLoop 0 2 (o.body y γ) 2 o.idx o.cache = .ok (r, idx', c') := hr
  refine ⟨r, { o with idx := idx', cache := c' }, by simp only [ProfitOracle.assessFeas, hr', Res.ok_bind], ?_, ⟨rfl, rfl, rfl, rfl⟩, ?_, ?_⟩
  · have := hin (by norm_num)
    exact ⟨by show (-1 : ℤ) ≤ idx'; omega, this.2, ho.cost, ho.elas⟩
  · intro hrn
    obtain ⟨a, b⟩ := hnone hrn
    exact ⟨a ⟨by norm_num, by norm_num⟩, b ⟨by norm_num, by norm_num⟩⟩
  · intro g b hb
    exact (hsome _ hb).2.2

/-- one query of `ProfitOracle` in any arithmetic -/
theorem profit_assess_any (ho : o.Shaped) (hy : y.IsVecShape 2) (γ : α) :
    ∃ g beta shrunk γ' o', ProfitOracle.oracle.assess o y γ = .ok (((g, ⟨beta⟩), shrunk), γ', o') ∧ o'.Shaped ∧ o.SameData o' ∧
      g.IsVecShape 2 ∧
      (shrunk = true → Scalar.gt (y.vec 0 - o.logK) 0 = false ∧ Scalar.gt (Scalar.ln (γ + o.costOf y) - o.logOf y) 0 = false ∧
        γ' = o.profitOf y ∧ beta = 0) ∧
      (shrunk = false → γ' = γ ∧ Scalar.gt beta 0 = true ∧ (beta = y.vec 0 - o.logK ∨ beta = Scalar.ln (γ + o.costOf y) - o.logOf y)) := by
  obtain ⟨r, o', hr, ho', hd, hnone, hsome⟩ := profit_feas_any ho hy γ
  cases r with
  | some p =>
    obtain ⟨g, b⟩ := p
    obtain ⟨hb, hg, hor⟩ := hsome g b rfl
    refine ⟨g, b, false, γ, o', ?_, ho', hd, hg, by simp, fun _ => ⟨rfl, hb, hor⟩⟩
    simp only [ProfitOracle.oracle, ProfitOracle.assess, hr, Res.ok_bind]
  | none =>
    obtain ⟨h1, h2, h3, h4, h5⟩ := hnone rfl
    obtain ⟨g, hg, hgv⟩ := (h5.isVec.map fun v => v * (1 / Scalar.exp (o.logOf y))).zipWith ho'.elas.isVec (· - ·)
    have hg' : (o'.cache.q.divScalar (Scalar.exp (o.logOf y))).sub o'.elasticities = .ok g := hg
    refine ⟨g, 0, true, o.profitOf y, o', ?_, ho', hd, hgv.shape, fun _ => ⟨h1, h2, rfl, rfl⟩, by simp⟩
    simp only [ProfitOracle.oracle, ProfitOracle.assess, hr, Res.ok_bind, h3, h4, hg']
    rfl

/-- the worst elasticities in any arithmetic -/
theorem rb_worst_any {o : ProfitRbOracle α} (he : o.elasticities.IsVecShape 2) (hy : y.IsVecShape 2) :
    ∃ a, o.worst y = .ok a ∧ a.IsVecShape 2 ∧
      a.vec 0 = o.elasticities.vec 0 + (if Scalar.gt (y.vec 0) 0 then -o.uie0 else o.uie0) ∧
      a.vec 1 = o.elasticities.vec 1 + (if Scalar.gt (y.vec 1) 0 then -o.uie1 else o.uie1) := by
  have hi := hy.isVec
  have he := he.isVec
  obtain ⟨a1, h1, k1⟩ := he.setIdx (i := 0) (by norm_num)
    (o.elasticities.vec 0 + (if Scalar.gt (y.vec 0) 0 then -o.uie0 else o.uie0))
  have h01 : a1.idx 1 = .ok (o.elasticities.vec 1) := by rw [k1.idx (by norm_num)]; rfl
  obtain ⟨a2, h2, k2⟩ := k1.setIdx (i := 1) (by norm_num)
    (o.elasticities.vec 1 + (if Scalar.gt (y.vec 1) 0 then -o.uie1 else o.uie1))
  refine ⟨a2, ?_, k2.shape, k2.vec (by norm_num), k2.vec (by norm_num)⟩
  have i0 : y.idx 0 = .ok (y.vec 0) := hi.idx (by norm_num)
  have i1 : y.idx 1 = .ok (y.vec 1) := hi.idx (by norm_num)
  have j0 : o.elasticities.idx 0 = .ok (o.elasticities.vec 0) := he.idx (by norm_num)
  rw [ProfitRbOracle.worst]
  simp only [forRange, forN, Nat.sub_zero, zero_add, List.getElem?_cons_zero, List.getElem?_cons_succ, Res.ofOption, Res.ok_bind,
    i0, i1, j0, h1, h01, h2]

end generic
end Ellalgo

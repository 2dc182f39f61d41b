import Verif.Props.Oracles64Svm
import Verif.Props.Binary64StableRun
import Verif.Props.Binary64Lmi
import Verif.Props.RoundedLowpassRuns
import Verif.Props.RoundedSvm

/-! # C126: filters and classifiers that runs in IEEE `f64` return -/

namespace Ellalgo

theorem Arr.Same.finite {x : Arr B64} {x' : Arr (Fl bin53)} (h : x.Same x') : ∀ y ∈ x.data, y.Finite := by
  intro y hy
  obtain ⟨i, hi, rfl⟩ := List.getElem_of_mem hy
  have hl := h.data.length_eq
  exact (h.data.get hi (by omega)).1

theorem Arr.Same.shape64 {x : Arr B64} {x' : Arr (Fl bin53)} {n : Nat} (h : x.Same x') (hx : x'.IsVecShape n) : x.IsVecShape n :=
  h.vecShape hx

/-- what a run of an optimisation in `f64` returns, when the run in `Fl bin53` is the same and returns what `G` says -/
theorem optim_transfer {Ω Ω' Sp Sp' : Type} {RΩ : Ω → Ω' → Prop} {RS : Sp → Sp' → Prop}
    {r : Res ((Option (Arr B64) × Nat) × B64 × Ω × Sp)} {r' : Res ((Option (Arr (Fl bin53)) × Nat) × Fl bin53 × Ω' × Sp')}
    (hr : Res.Rel (fun p q => OptRel Arr.Same p.1.1 q.1.1 ∧ p.1.2 = q.1.2 ∧ Same p.2.1 q.2.1 ∧ RΩ p.2.2.1 q.2.2.1 ∧ RS p.2.2.2 q.2.2.2) r r')
    {x0 : Option (Arr (Fl bin53))} {k' : Nat} {γ' : Fl bin53} {w' : Ω'} {s' : Sp'} (h' : r' = .ok ((x0, k'), γ', w', s')) :
    ∃ x k γ w s, r = .ok ((x, k), γ, w, s) ∧ Same γ γ' ∧ OptRel Arr.Same x x0 := by
  subst h'
  cases r with
  | panic => exact hr.elim
  | ok p =>
    obtain ⟨⟨x, k⟩, γ, w, s⟩ := p
    exact ⟨x, k, γ, w, s, rfl, hr.2.2.1, hr.1⟩

section lowpass
variable {n : Nat} {d : LpData} {ε : ℝ}

theorem two53_small : (2 : ℝ) ^ (-53 : ℤ) ≤ 1 / 8 := by norm_num

/-- the answer for the `f64` run, read off the rounded run -/
theorem lowpass_read {Ω' Sp' Sp : Type} {RS : Sp → Sp' → Prop} {RΩ : LowpassOracle B64 → Ω' → Prop}
    {r : Res ((Option (Arr B64) × Nat) × B64 × LowpassOracle B64 × Sp)}
    {r' : Res ((Option (Arr (Fl bin53)) × Nat) × Fl bin53 × Ω' × Sp')}
    (hr : Res.Rel (fun p q => OptRel Arr.Same p.1.1 q.1.1 ∧ p.1.2 = q.1.2 ∧ Same p.2.1 q.2.1 ∧ RΩ p.2.2.1 q.2.2.1 ∧ RS p.2.2.2 q.2.2.2) r r')
    {γ : B64} {γ' : Fl bin53} (hγ : Same γ γ')
    (h : ∃ r0 k γ1 o' s', r' = .ok ((r0, k), γ1, o', s') ∧ γ1.val ≤ γ'.val ∧ (r0 = none → γ1 = γ') ∧
      ∀ x, r0 = some x → x.IsVecShape n ∧
        x.flVec n ∈ d.feasibleWith γ1.val (-lpErr ((2 : ℝ) ^ (-53 : ℤ)) ε n 0 (x.flVec n) (x.flVec n)) ∧
        ∃ k, d.stop ≤ k ∧ k < d.m ∧ |γ1.val - lpResponse (x.flVec n) (d.freq k)| ≤
          lpErr ((2 : ℝ) ^ (-53 : ℤ)) ε n 0 (x.flVec n) (x.flVec n)) :
    ∃ r0 k γ1 o1 e1, r = .ok ((r0, k), γ1, o1, e1) ∧ γ1.Finite ∧
      γ1.val ≤ γ.val ∧ (r0 = none → γ1.val = γ.val) ∧
      ∀ x, r0 = some x → x.IsVecShape n ∧ (∀ y ∈ x.data, y.Finite) ∧
        x.vec64 n ∈ d.feasibleWith γ1.val (-lpErr ((2 : ℝ) ^ (-53 : ℤ)) ε n 0 (x.vec64 n) (x.vec64 n)) ∧
        ∃ k, d.stop ≤ k ∧ k < d.m ∧ |γ1.val - lpResponse (x.vec64 n) (d.freq k)| ≤
          lpErr ((2 : ℝ) ^ (-53 : ℤ)) ε n 0 (x.vec64 n) (x.vec64 n) := by
  obtain ⟨r0, k, γ1, o', s', h1, h2, h3, h4⟩ := h
  obtain ⟨x, k1, g, w, s, g1, g2, g3⟩ := optim_transfer hr h1
  refine ⟨x, k1, g, w, s, g1, g2.1, ?_, ?_, ?_⟩
  · rw [g2.2, hγ.2]; exact h2
  · rintro rfl
    cases r0 with
    | some y => exact g3.elim
    | none => rw [g2.2, hγ.2, h3 rfl]
  · rintro y rfl
    cases r0 with
    | none => exact g3.elim
    | some y' =>
      have hy : y.Same y' := g3
      obtain ⟨a1, a2, a3⟩ := h4 y' rfl
      rw [vec64_eq hy a1, g2.2]
      exact ⟨hy.vecShape a1, hy.finite, a2, a3⟩

/-- **C126** (filter design)  `cutting_plane_optim` in IEEE-754 `f64` with a low-pass oracle for the specification `d`, whose table of cosines is
right up to `ε`, and an ellipsoid, whose steps stay in range.  The run ends without a panic, the stopband bound it reports is a finite number, never
worse than the initial one and equal to it if no filter is returned.  A returned filter is made of finite numbers, meets every inequality of the
specification with that bound up to `lpErr`, and attains the bound at some stopband frequency up to `lpErr`, for `u = 2⁻⁵³`. -/
theorem C126_lowpass_run (hd : d.Ok) (hs : d.stop < d.m) (hε : ε < 1) (hn : 0 < n) {o : LowpassOracle B64} {o' : LowpassOracle (Fl bin53)}
    (hoo : o.Same64 o') (ho : o'.FlFor d n ε) {e : Ell B64} {e' : Ell (Fl bin53)} (he : e.Same64 e') (hsh : e'.Shaped n)
    {γ : B64} {γ' : Fl bin53} (hγ : Same γ γ') {opts : Options B64} {opts' : Options (Fl bin53)}
    (ht : Same opts.tolerance opts'.tolerance) (hi : opts.maxIters = opts'.maxIters)
    (ok : OptimSafe LowpassOracle.oracle n (fun o x γ => o.Safe n γ x) opts'.tolerance opts'.maxIters o' e' γ') :
    ∃ r k γ1 o1 e1, cuttingPlaneOptim LowpassOracle.oracle Ell.space o e γ opts = .ok ((r, k), γ1, o1, e1) ∧ γ1.Finite ∧
      γ1.val ≤ γ.val ∧ (r = none → γ1.val = γ.val) ∧
      ∀ x, r = some x → x.IsVecShape n ∧ (∀ y ∈ x.data, y.Finite) ∧
        x.vec64 n ∈ d.feasibleWith γ1.val (-lpErr ((2 : ℝ) ^ (-53 : ℤ)) ε n 0 (x.vec64 n) (x.vec64 n)) ∧
        ∃ k, d.stop ≤ k ∧ k < d.m ∧ |γ1.val - lpResponse (x.vec64 n) (d.freq k)| ≤
          lpErr ((2 : ℝ) ^ (-53 : ℤ)) ε n 0 (x.vec64 n) (x.vec64 n) :=
  lowpass_read (C109_optim _ _ _ _ C126_lowpass_optim opts opts' ht hi hn o o' e e' γ γ' hoo he hsh hγ ok) hγ
    (C88_lowpass_optim_run hd hs two53_small hε (C86_ell_steady hn).1 ho hsh γ' opts')

/-- **C126** (filter design on `EllStable`)  Likewise on the numerically stable search space. -/
theorem C126_lowpass_run_stable (hd : d.Ok) (hs : d.stop < d.m) (hε : ε < 1) (hn : 0 < n) {o : LowpassOracle B64}
    {o' : LowpassOracle (Fl bin53)} (hoo : o.Same64 o') (ho : o'.FlFor d n ε) {e : EllStable B64} {e' : EllStable (Fl bin53)} (he : e.Same64 e')
    (hsh : e'.Shaped n) {γ : B64} {γ' : Fl bin53} (hγ : Same γ γ') {opts : Options B64} {opts' : Options (Fl bin53)}
    (ht : Same opts.tolerance opts'.tolerance) (hi : opts.maxIters = opts'.maxIters)
    (ok : EllStable.OptimSafe LowpassOracle.oracle n (fun o x γ => o.Safe n γ x) opts'.tolerance opts'.maxIters o' e' γ') :
    ∃ r k γ1 o1 e1, cuttingPlaneOptim LowpassOracle.oracle EllStable.space o e γ opts = .ok ((r, k), γ1, o1, e1) ∧ γ1.Finite ∧
      γ1.val ≤ γ.val ∧ (r = none → γ1.val = γ.val) ∧
      ∀ x, r = some x → x.IsVecShape n ∧ (∀ y ∈ x.data, y.Finite) ∧
        x.vec64 n ∈ d.feasibleWith γ1.val (-lpErr ((2 : ℝ) ^ (-53 : ℤ)) ε n 0 (x.vec64 n) (x.vec64 n)) ∧
        ∃ k, d.stop ≤ k ∧ k < d.m ∧ |γ1.val - lpResponse (x.vec64 n) (d.freq k)| ≤
          lpErr ((2 : ℝ) ^ (-53 : ℤ)) ε n 0 (x.vec64 n) (x.vec64 n) :=
  lowpass_read (C125_optim _ _ _ _ C126_lowpass_optim opts opts' ht hi hn o o' e e' γ γ' hoo he hsh hγ ok) hγ
    (C88_lowpass_optim_run hd hs two53_small hε (C86_ell_steady hn).2 ho hsh γ' opts')

end lowpass

section svm
variable {m n : Nat}

theorem svm_read {Ω' Sp' Sp : Type} {RS : Sp → Sp' → Prop} {RΩ : SvmOracle B64 → Ω' → Prop} {y : Fin m → ℤ} {X : Matrix (Fin m) (Fin n) ℝ}
    {r : Res ((Option (Arr B64) × Nat) × B64 × SvmOracle B64 × Sp)}
    {r' : Res ((Option (Arr (Fl bin53)) × Nat) × Fl bin53 × Ω' × Sp')}
    (hr : Res.Rel (fun p q => OptRel Arr.Same p.1.1 q.1.1 ∧ p.1.2 = q.1.2 ∧ Same p.2.1 q.2.1 ∧ RΩ p.2.2.1 q.2.2.1 ∧ RS p.2.2.2 q.2.2.2) r r')
    {γ : B64} {γ' : Fl bin53} (hγ : Same γ γ') {o' : Ω'}
    (h : ∃ r0 k γ1 s', r' = .ok ((r0, k), γ1, o', s') ∧ (r0 = none → γ1 = γ') ∧
      ∀ x, r0 = some x → x.IsVecShape (n + 1) ∧
        ((γ1.val = 0 ∧ ∀ i, 1 - svmErr ((2 : ℝ) ^ (-53 : ℤ)) X y (x.flVec (n + 1)) i ≤ svmMargin X y (x.flVec (n + 1)) i) ∨
         (γ1.val < 1 ∧ (∀ j, γ1.val - svmErr ((2 : ℝ) ^ (-53 : ℤ)) X y (x.flVec (n + 1)) j ≤ svmMargin X y (x.flVec (n + 1)) j) ∧
          ∃ i, svmMargin X y (x.flVec (n + 1)) i ≤ γ1.val + svmErr ((2 : ℝ) ^ (-53 : ℤ)) X y (x.flVec (n + 1)) i))) :
    ∃ r0 k γ1 o1 e1, r = .ok ((r0, k), γ1, o1, e1) ∧ γ1.Finite ∧ (r0 = none → γ1.val = γ.val) ∧
      ∀ x, r0 = some x → x.IsVecShape (n + 1) ∧ (∀ y ∈ x.data, y.Finite) ∧
        ((γ1.val = 0 ∧ ∀ i, 1 - svmErr ((2 : ℝ) ^ (-53 : ℤ)) X y (x.vec64 (n + 1)) i ≤ svmMargin X y (x.vec64 (n + 1)) i) ∨
         (γ1.val < 1 ∧ (∀ j, γ1.val - svmErr ((2 : ℝ) ^ (-53 : ℤ)) X y (x.vec64 (n + 1)) j ≤ svmMargin X y (x.vec64 (n + 1)) j) ∧
          ∃ i, svmMargin X y (x.vec64 (n + 1)) i ≤ γ1.val + svmErr ((2 : ℝ) ^ (-53 : ℤ)) X y (x.vec64 (n + 1)) i)) := by
  obtain ⟨r0, k, γ1, s', h1, h3, h4⟩ := h
  obtain ⟨x, k1, g, w, s, g1, g2, g3⟩ := optim_transfer hr h1
  refine ⟨x, k1, g, w, s, g1, g2.1, ?_, ?_⟩
  · rintro rfl
    cases r0 with
    | some y => exact g3.elim
    | none => rw [g2.2, hγ.2, h3 rfl]
  · rintro z rfl
    cases r0 with
    | none => exact g3.elim
    | some z' =>
      have hz : z.Same z' := g3
      obtain ⟨a1, a2⟩ := h4 z' rfl
      rw [vec64_eq hz a1, g2.2]
      exact ⟨hz.vecShape a1, hz.finite, a2⟩

theorem rect64_eq {a : Arr B64} {a' : Arr (Fl bin53)} (h : a.Same a') (hs : a'.IsMatShape m n) : a.rect64 m n = a'.flRect m n := by
  ext i j
  exact ((h.rect hs).2 i j i.2 j.2).2

/-- **C126** (classifiers)  `cutting_plane_optim` in IEEE-754 `f64` with an SVM oracle for `m` samples with `n` features and labels `y`, and an
ellipsoid, whose steps stay in range.  The run ends without a panic and reports a finite number, the initial one if no classifier is returned.  A
returned classifier is made of finite numbers; either the value is 0 and all margins are at least 1 up to `svmErr`, or its smallest margin is
the reported value `< 1` up to `svmErr`, for `u = 2⁻⁵³`. -/
theorem C126_svm_run {y : Fin m → ℤ} {o : SvmOracle B64} {o' : SvmOracle (Fl bin53)} (hoo : o.Same64 o') (ho : o'.FlFor m n y)
    {e : Ell B64} {e' : Ell (Fl bin53)} (he : e.Same64 e') (hsh : e'.Shaped (n + 1)) {γ : B64} {γ' : Fl bin53} (hγ : Same γ γ')
    {opts : Options B64} {opts' : Options (Fl bin53)} (ht : Same opts.tolerance opts'.tolerance) (hi : opts.maxIters = opts'.maxIters)
    (ok : OptimSafe SvmOracle.oracle (n + 1) (fun o x _ => o.Safe m n x) opts'.tolerance opts'.maxIters o' e' γ') :
    ∃ r k γ1 o1 e1, cuttingPlaneOptim SvmOracle.oracle Ell.space o e γ opts = .ok ((r, k), γ1, o1, e1) ∧ γ1.Finite ∧
      (r = none → γ1.val = γ.val) ∧
      ∀ x, r = some x → x.IsVecShape (n + 1) ∧ (∀ y ∈ x.data, y.Finite) ∧
        ((γ1.val = 0 ∧ ∀ i, 1 - svmErr ((2 : ℝ) ^ (-53 : ℤ)) (o.data.rect64 m n) y (x.vec64 (n + 1)) i ≤
            svmMargin (o.data.rect64 m n) y (x.vec64 (n + 1)) i) ∨
         (γ1.val < 1 ∧ (∀ j, γ1.val - svmErr ((2 : ℝ) ^ (-53 : ℤ)) (o.data.rect64 m n) y (x.vec64 (n + 1)) j ≤
            svmMargin (o.data.rect64 m n) y (x.vec64 (n + 1)) j) ∧
          ∃ i, svmMargin (o.data.rect64 m n) y (x.vec64 (n + 1)) i ≤
            γ1.val + svmErr ((2 : ℝ) ^ (-53 : ℤ)) (o.data.rect64 m n) y (x.vec64 (n + 1)) i)) := by
  rw [rect64_eq hoo.data ho.data]
  exact svm_read (C109_optim _ _ _ _ C126_svm_optim opts opts' ht hi (Nat.succ_pos n) o o' e e' γ γ' hoo he hsh hγ ok) hγ
    (C93_svm_run (C86_ell_steady (Nat.succ_pos n)).1 o' ho hsh γ' opts')

/-- **C126** (classifiers on `EllStable`)  Likewise on the numerically stable search space. -/
theorem C126_svm_run_stable {y : Fin m → ℤ} {o : SvmOracle B64} {o' : SvmOracle (Fl bin53)} (hoo : o.Same64 o') (ho : o'.FlFor m n y)
    {e : EllStable B64} {e' : EllStable (Fl bin53)} (he : e.Same64 e') (hsh : e'.Shaped (n + 1)) {γ : B64} {γ' : Fl bin53} (hγ : Same γ γ')
    {opts : Options B64} {opts' : Options (Fl bin53)} (ht : Same opts.tolerance opts'.tolerance) (hi : opts.maxIters = opts'.maxIters)
    (ok : EllStable.OptimSafe SvmOracle.oracle (n + 1) (fun o x _ => o.Safe m n x) opts'.tolerance opts'.maxIters o' e' γ') :
    ∃ r k γ1 o1 e1, cuttingPlaneOptim SvmOracle.oracle EllStable.space o e γ opts = .ok ((r, k), γ1, o1, e1) ∧ γ1.Finite ∧
      (r = none → γ1.val = γ.val) ∧
      ∀ x, r = some x → x.IsVecShape (n + 1) ∧ (∀ y ∈ x.data, y.Finite) ∧
        ((γ1.val = 0 ∧ ∀ i, 1 - svmErr ((2 : ℝ) ^ (-53 : ℤ)) (o.data.rect64 m n) y (x.vec64 (n + 1)) i ≤
            svmMargin (o.data.rect64 m n) y (x.vec64 (n + 1)) i) ∨
         (γ1.val < 1 ∧ (∀ j, γ1.val - svmErr ((2 : ℝ) ^ (-53 : ℤ)) (o.data.rect64 m n) y (x.vec64 (n + 1)) j ≤
            svmMargin (o.data.rect64 m n) y (x.vec64 (n + 1)) j) ∧
          ∃ i, svmMargin (o.data.rect64 m n) y (x.vec64 (n + 1)) i ≤
            γ1.val + svmErr ((2 : ℝ) ^ (-53 : ℤ)) (o.data.rect64 m n) y (x.vec64 (n + 1)) i)) := by
  rw [rect64_eq hoo.data ho.data]
  exact svm_read (C125_optim _ _ _ _ C126_svm_optim opts opts' ht hi (Nat.succ_pos n) o o' e e' γ γ' hoo he hsh hγ ok) hγ
    (C93_svm_run (C86_ell_steady (Nat.succ_pos n)).2 o' ho hsh γ' opts')

end svm
end Ellalgo

import Verif.Model.Error
import Verif.Spec.Binary64

/-! # C106: error values and their messages -/

namespace Ellalgo
namespace EllipsoidError
variable {α : Type}

/-! ## Specification -/

/-- the five kinds of errors -/
inductive Kind | nonConvergence | infeasible | numericalInstability | invalidParameters | matrixError
  deriving DecidableEq

/-- the kind of an error -/
def kind : EllipsoidError α → Kind
  | nonConvergence .. => .nonConvergence
  | infeasible .. => .infeasible
  | numericalInstability .. => .numericalInstability
  | invalidParameters .. => .invalidParameters
  | matrixError .. => .matrixError

/-- everything an error carries, printed -/
def fields (fmt : α → String) : EllipsoidError α → List String
  | nonConvergence i m v => [toString i, toString m] ++ (v.map fmt).toList
  | infeasible r => [r]
  | numericalInstability d v => d :: (v.map fmt).toList
  | invalidParameters d => [d]
  | matrixError d => [d]

/-- the floating-point number an error carries, if any -/
def number : EllipsoidError α → Option α
  | nonConvergence _ _ v => v
  | numericalInstability _ v => v
  | _ => none

/-! ## Proofs -/

private theorem digits_split {a b : List Char} {c : Char} {s t : List Char} (ha : c ∉ a) (hb : c ∉ b) (h : a ++ c :: s = b ++ c :: t) :
    a = b ∧ s = t := by
  induction a generalizing b with
  | nil =>
    cases b with
    | nil => simpa using h
    | cons y b => simp at h; exact absurd h.1 (by rintro rfl; simp at hb)
  | cons x a ih =>
    cases b with
    | nil => simp at h; exact absurd h.1 (by rintro rfl; simp at ha)
    | cons y b =>
      simp only [List.cons_append, List.cons.injEq] at h
      simp only [List.mem_cons, not_or] at ha hb
      obtain ⟨rfl, e⟩ := ih ha.2 hb.2 h.2
      exact ⟨by rw [h.1], e⟩

private theorem nat_no {c : Char} (hc : c.isDigit = false) (n : Nat) : c ∉ (toString n).toList := by
  intro h
  have := Nat.isDigit_of_mem_toDigits (b := 10) (n := n) (c := c) (by norm_num) (by norm_num) (by simpa using h)
  simp [hc] at this

private theorem nat_inj {a b : Nat} (h : (toString a).toList = (toString b).toList) : a = b := by
  have h2 : Nat.toDigits 10 a = Nat.toDigits 10 b := by simpa using h
  rw [← Nat.ofDigitChars_ten_toDigits (n := a), h2, Nat.ofDigitChars_ten_toDigits]

private theorem display_nc (fmt : α → String) (i m : Nat) (v : Option α) : display fmt (nonConvergence i m v) =
    "Algorithm failed to converge after " ++ toString i ++ " iterations (max: " ++ toString m ++ ")" ++
      ifSome (fun val => ". Final objective value: " ++ fmt val) v := rfl
private theorem display_in (fmt : α → String) (r : String) : display fmt (infeasible r) = "Problem is infeasible: " ++ r := rfl
private theorem display_ni (fmt : α → String) (d : String) (v : Option α) : display fmt (numericalInstability d v) =
    "Numerical instability detected: " ++ d ++ ifSome (fun val => " (value: " ++ fmt val ++ ")") v := rfl
private theorem display_ip (fmt : α → String) (d : String) : display fmt (invalidParameters d) = "Invalid parameters: " ++ d := rfl
private theorem display_me (fmt : α → String) (d : String) : display fmt (matrixError d) = "Matrix operation failed: " ++ d := rfl

/-- what follows the iteration limit in a message -/
private def tail (fmt : α → String) (v : Option α) : List Char := (ifSome (fun val => ". Final objective value: " ++ fmt val) v).toList

private theorem tail_some (fmt : α → String) (v : α) : tail fmt (some v) = ". Final objective value: ".toList ++ (fmt v).toList := by
  simp only [tail, ifSome, String.toList_append]
private theorem tail_none (fmt : α → String) : tail fmt none = [] := by simp [tail, ifSome]

private theorem nc_toList (fmt : α → String) (i m : Nat) (v : Option α) :
    (display fmt (nonConvergence i m v)).toList = "Algorithm failed to converge after ".toList ++
      ((toString i).toList ++ ' ' :: ("iterations (max: ".toList ++ ((toString m).toList ++ ')' :: tail fmt v))) := by
  have h1 : " iterations (max: ".toList = ' ' :: "iterations (max: ".toList := by simp
  have h2 : ")".toList = [')'] := by simp
  rw [display_nc, tail]
  simp only [String.toList_append, List.append_assoc]
  rw [h1, h2]
  simp only [List.cons_append, List.nil_append]

/-- the first letter of a message of each kind -/
private def first : Kind → Char
  | .nonConvergence => 'A'
  | .infeasible => 'P'
  | .numericalInstability => 'N'
  | .invalidParameters => 'I'
  | .matrixError => 'M'

private theorem head_display (fmt : α → String) (e : EllipsoidError α) : (e.display fmt).toList.head? = some (first e.kind) := by
  rcases e with ⟨i, m, v⟩ | r | ⟨d, v⟩ | d | d
  · rw [nc_toList]
    have h : ∃ r, "Algorithm failed to converge after ".toList = 'A' :: r := by simp
    obtain ⟨r, h⟩ := h
    rw [h]; rfl
  · have h : ∃ r, "Problem is infeasible: ".toList = 'P' :: r := by simp
    obtain ⟨r, h⟩ := h
    rw [display_in, String.toList_append, h]; rfl
  · have h : ∃ r, "Numerical instability detected: ".toList = 'N' :: r := by simp
    obtain ⟨r, h⟩ := h
    rw [display_ni, String.toList_append, String.toList_append, h]; rfl
  · have h : ∃ r, "Invalid parameters: ".toList = 'I' :: r := by simp
    obtain ⟨r, h⟩ := h
    rw [display_ip, String.toList_append, h]; rfl
  · have h : ∃ r, "Matrix operation failed: ".toList = 'M' :: r := by simp
    obtain ⟨r, h⟩ := h
    rw [display_me, String.toList_append, h]; rfl

/-- Messages of different kinds differ. -/
theorem C106_kind (fmt : α → String) (e e' : EllipsoidError α) (h : e.display fmt = e'.display fmt) : e.kind = e'.kind := by
  have h1 := head_display fmt e
  rw [h, head_display fmt e', Option.some.injEq] at h1
  revert h1
  cases e.kind <;> cases e'.kind <;> decide

/-- Everything an error carries can be read in its message. -/
theorem C106_fields (fmt : α → String) (e : EllipsoidError α) (s : String) (hs : s ∈ e.fields fmt) :
    s.toList <:+: (e.display fmt).toList := by
  have mid : ∀ a b c : List Char, b <:+: a ++ (b ++ c) := fun a b c => ⟨a, c, by rw [List.append_assoc]⟩
  have lst : ∀ a b : List Char, b <:+: a ++ b := fun a b => ⟨a, [], by rw [List.append_nil]⟩
  rcases e with ⟨i, m, v⟩ | r | ⟨d, v⟩ | d | d
  · rw [nc_toList]
    simp only [fields, List.cons_append, List.nil_append, List.mem_cons] at hs
    rcases hs with rfl | rfl | hs
    · exact mid _ _ _
    · have := mid ("Algorithm failed to converge after ".toList ++ (toString i).toList ++ ' ' :: "iterations (max: ".toList)
        (toString m).toList (')' :: tail fmt v)
      simpa only [List.append_assoc, List.cons_append] using this
    · rcases v with _ | v
      · simp at hs
      · rw [Option.map_some, Option.toList_some, List.mem_singleton] at hs
        subst hs
        have := lst ("Algorithm failed to converge after ".toList ++ (toString i).toList ++ ' ' :: "iterations (max: ".toList ++
          (toString m).toList ++ ')' :: ". Final objective value: ".toList) (fmt v).toList
        rw [tail_some]
        simpa only [List.append_assoc, List.cons_append] using this
  · rw [display_in, String.toList_append]
    rw [fields, List.mem_singleton] at hs
    subst hs; exact lst _ _
  · rw [display_ni, String.toList_append, String.toList_append, List.append_assoc]
    rw [fields, List.mem_cons] at hs
    rcases hs with rfl | hs
    · exact mid _ _ _
    · rcases v with _ | v
      · simp at hs
      · rw [Option.map_some, Option.toList_some, List.mem_singleton] at hs
        subst hs
        have := mid ("Numerical instability detected: ".toList ++ d.toList ++ " (value: ".toList) (fmt v).toList ")".toList
        simpa only [ifSome, String.toList_append, List.append_assoc] using this
  · rw [display_ip, String.toList_append]
    rw [fields, List.mem_singleton] at hs
    subst hs; exact lst _ _
  · rw [display_me, String.toList_append]
    rw [fields, List.mem_singleton] at hs
    subst hs; exact lst _ _

/-- Apart from numerical instability, an error can be recovered from its message, provided numbers are printed differently when they
are different. -/
theorem C106_message_determines (fmt : α → String) (hf : Function.Injective fmt) (e e' : EllipsoidError α)
    (hk : e.kind ≠ .numericalInstability) (h : e.display fmt = e'.display fmt) : e = e' := by
  have hkk := C106_kind fmt e e' h
  rcases e with ⟨i, m, v⟩ | r | ⟨d, v⟩ | d | d <;> rcases e' with ⟨i', m', v'⟩ | r' | ⟨d', v'⟩ | d' | d' <;>
    simp only [kind, reduceCtorEq, ne_eq, not_true_eq_false] at hkk hk
  · have h := congrArg String.toList h
    rw [nc_toList, nc_toList] at h
    obtain ⟨h1, h2⟩ := digits_split (nat_no (by decide) i) (nat_no (by decide) i') (List.append_cancel_left h)
    obtain ⟨h3, h4⟩ := digits_split (nat_no (by decide) m) (nat_no (by decide) m') (List.append_cancel_left h2)
    rw [nat_inj h1, nat_inj h3]
    rcases v with _ | v <;> rcases v' with _ | v' <;> simp only [tail_some, tail_none] at h4
    · rfl
    · exact absurd (congrArg List.length h4) (by simp)
    · exact absurd (congrArg List.length h4) (by simp)
    · rw [hf (String.toList_inj.1 (List.append_cancel_left h4))]
  all_goals
    have h := congrArg String.toList h
    simp only [display_in, display_ip, display_me, String.toList_append] at h
    rw [String.toList_inj.1 (List.append_cancel_left h)]

/-- For numerical instability this fails: a value and the same text at the end of the details give the same message. -/
theorem C106_instability_ambiguous (fmt : α → String) (d : String) (v : α) :
    ∃ d', (numericalInstability d' none : EllipsoidError α).display fmt = (numericalInstability d (some v)).display fmt :=
  ⟨d ++ (" (value: " ++ fmt v ++ ")"), by
    have h : (ifSome (fun val => " (value: " ++ fmt val ++ ")") (none : Option α)) = "" := rfl
    rw [display_ni, display_ni, h, String.append_empty, ifSome]
    simp only [String.append_assoc]⟩

/-- `clone` copies everything. -/
theorem C106_clone (e : EllipsoidError α) : e.clone = e := by cases e <;> rfl

private theorem optEq_self [Scalar α] (v : Option α) : optEq v v = true ↔ ∀ a ∈ v, Scalar.beq a a = true := by
  cases v <;> simp [optEq]

/-- Two errors compare equal exactly if they are of the same kind, carry the same texts and counts, and both carry no number or both
carry one and these are equal as `f64` (so `0 = -0`, and NaN differs from everything). -/
theorem C106_eq [Scalar α] (e e' : EllipsoidError α) : e.eq e' = true ↔ e.kind = e'.kind ∧
    e.fields (fun _ => "number") = e'.fields (fun _ => "number") ∧ ∀ a ∈ e.number, ∀ b ∈ e'.number, Scalar.beq a b = true := by
  have inj : ∀ a b : Nat, a.repr = b.repr ↔ a = b := fun a b => ⟨fun h => nat_inj (by simpa using congrArg String.toList h), fun h => by rw [h]⟩
  rcases e with ⟨i, m, _ | v⟩ | r | ⟨d, _ | v⟩ | d | d <;> rcases e' with ⟨i', m', _ | v'⟩ | r' | ⟨d', _ | v'⟩ | d' | d' <;>
    simp [eq, optEq, kind, fields, number, inj, and_assoc]

/-- An error compares equal to its clone exactly if the number it carries is not NaN. -/
theorem C106_clone_equal (e : EllipsoidError B64) : e.eq e.clone = true ↔ B64.nan ∉ e.number := by
  rw [C106_clone]
  have key : ∀ v : Option B64, optEq v v = true ↔ B64.nan ∉ v := by
    intro v
    rw [optEq_self]
    constructor
    · intro h hn
      have := h _ hn
      exact absurd this (by change ¬ (B64.beq _ _ = true); simp [B64.beq])
    · intro h a ha
      change B64.beq a a = true
      cases a <;> simp_all [B64.beq]
  rcases e with ⟨i, m, v⟩ | r | ⟨d, v⟩ | d | d <;> simp [eq, number, key]

/-- the messages of the repository's own test (error.rs:96-110), with "0.5" as the text of the number -/
example : (nonConvergence 100 200 (some ()) : EllipsoidError Unit).display (fun _ => "0.5") =
    "Algorithm failed to converge after 100 iterations (max: 200). Final objective value: 0.5" := by decide +kernel
example : (infeasible "Constraints conflict" : EllipsoidError Unit).display (fun _ => "") =
    "Problem is infeasible: Constraints conflict" := by decide +kernel

/-- the hypotheses of `C106_message_determines` can be met -/
example : ∃ (fmt : Bool → String) (e : EllipsoidError Bool), Function.Injective fmt ∧ e.kind ≠ .numericalInstability :=
  ⟨fun b => if b then "1" else "0", nonConvergence 3 5 (some true), by intro a b; cases a <;> cases b <;> simp, by decide⟩

/-- an error that carries a NaN is not equal to its clone; one that carries 0 is (error.rs:113-120) -/
example : (numericalInstability "Division by zero" (some B64.nan)).eq (numericalInstability "Division by zero" (some B64.nan)).clone = false ∧
    (numericalInstability "Division by zero" (some (B64.zero false))).eq
      (numericalInstability "Division by zero" (some (B64.zero false))).clone = true := by
  refine ⟨?_, (C106_clone_equal _).2 (by simp [number])⟩
  rw [Bool.eq_false_iff]
  exact fun h => (C106_clone_equal _).1 h rfl

end EllipsoidError
end Ellalgo

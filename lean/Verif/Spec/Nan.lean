import Verif.Spec.EllOps

/-! Not-a-number values.  `NanLaws N` states the only facts about NaN that IEEE-754 binary64 (hence `f64`) guarantees and the
crate depends on: every arithmetic operation on a NaN gives a NaN and every comparison with a NaN is false.  The theorems of
C81 hold for every scalar type with such values; they say nothing about rounding, overflow or exact arithmetic and so apply
to `f64` as it is.  (`powf` is left out: `powf(1, NaN) = 1`.) -/

namespace Ellalgo

/-- `N` is a set of absorbing, incomparable values -/
structure NanLaws {α : Type} [Scalar α] (N : α → Prop) : Prop where
  add_left {a : α} (h : N a) (b : α) : N (a + b)
  add_right (a : α) {b : α} (h : N b) : N (a + b)
  sub_left {a : α} (h : N a) (b : α) : N (a - b)
  sub_right (a : α) {b : α} (h : N b) : N (a - b)
  mul_left {a : α} (h : N a) (b : α) : N (a * b)
  mul_right (a : α) {b : α} (h : N b) : N (a * b)
  div_left {a : α} (h : N a) (b : α) : N (a / b)
  div_right (a : α) {b : α} (h : N b) : N (a / b)
  neg {a : α} (h : N a) : N (-a)
  sqrt {a : α} (h : N a) : N (Scalar.sqrt a)
  exp {a : α} (h : N a) : N (Scalar.exp a)
  ln {a : α} (h : N a) : N (Scalar.ln a)
  abs {a : α} (h : N a) : N (Scalar.abs a)
  round {a : α} (h : N a) : N (Scalar.round a)
  lt_left {a : α} (h : N a) (b : α) : Scalar.lt a b = false
  lt_right (a : α) {b : α} (h : N b) : Scalar.lt a b = false
  le_left {a : α} (h : N a) (b : α) : Scalar.le a b = false
  le_right (a : α) {b : α} (h : N b) : Scalar.le a b = false
  beq_left {a : α} (h : N a) (b : α) : Scalar.beq a b = false
  ltInf {a : α} (h : N a) : Scalar.ltInf a = false
  gtNegInf {a : α} (h : N a) : Scalar.gtNegInf a = false

/-- some entry of the array is a NaN -/
def Arr.SomeNan {α : Type} (N : α → Prop) (a : Arr α) : Prop := ∃ v ∈ a.data, N v
/-- every entry of the array is a NaN -/
def Arr.AllNan {α : Type} (N : α → Prop) (a : Arr α) : Prop := ∀ v ∈ a.data, N v

/-- the ellipsoid's size is spoilt: its scale factor or some entry of its matrix is a NaN -/
def Ell.Spoilt {α : Type} (N : α → Prop) (e : Ell α) : Prop := N e.kappa ∨ e.mq.SomeNan N

end Ellalgo

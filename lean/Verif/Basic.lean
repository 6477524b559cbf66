/-!
# Shared vocabulary of the model

`fu`'s `byte` is compiled to C++ `char` (include/fu/int.h:9, `typedef char byte`), an 8-bit word that is
*signed* on the platforms the repository targets.  Strings are arrays of bytes.
-/

namespace Verif

/-- include/fu/int.h:9 - one `byte` of a fu string. -/
abbrev Byte := BitVec 8

/-- Fu strings (`byte[]`, include/fu/str.h) are modelled as lists of bytes. -/
abbrev Str := List Byte

/-- A character literal such as `'0'` in fu/C++ source. -/
def ch (c : Char) : Byte := BitVec.ofNat 8 c.toNat

/-- A string literal in fu/C++ source. -/
def str (s : String) : Str := s.toList.map ch

/-- Signed `char` comparison `a <= b`, as emitted for fu `byte` comparisons. -/
def Byte.le (a b : Byte) : Bool := BitVec.sle a b
/-- Signed `char` comparison `a < b`. -/
def Byte.lt (a b : Byte) : Bool := BitVec.slt a b

instance {ε α : Type _} [DecidableEq ε] [DecidableEq α] : DecidableEq (Except ε α)
  | .error a, .error b => if h : a = b then isTrue (h ▸ rfl) else isFalse (fun e => h (Except.error.inj e))
  | .ok a, .ok b => if h : a = b then isTrue (h ▸ rfl) else isFalse (fun e => h (Except.ok.inj e))
  | .error _, .ok _ => isFalse (fun e => nomatch e)
  | .ok _, .error _ => isFalse (fun e => nomatch e)

end Verif

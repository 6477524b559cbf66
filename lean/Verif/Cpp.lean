import Verif.Prelude
import Verif.Ascii
/-!
# Model of `src/cpp.fu`: C++ identifiers and operators
-/
namespace Verif.Cpp
open Verif

/-- src/cpp.fu:6-25 `KEYWORDS`: bucket `n` holds keywords of length `n`. -/
def KEYWORDS : List (List String) :=
  [ [],
    [],
    ["do","if","or"],
    ["and","asm","for","int","new","not","try","xor"],
    ["auto","bool","case","char","else","enum","goto","long","this","true","void"],
    ["bitor","break","catch","class","compl","const","false","float","or_eq","short","throw","union","using","while"],
    ["and_eq","bitand","delete","double","export","extern","friend","inline","not_eq","public","return","signed","sizeof","static","struct","switch","typeid","xor_eq"],
    ["alignas","alignof","char8_t","concept","default","mutable","nullptr","private","typedef","virtual","wchar_t"],
    ["char16_t","char32_t","continue","co_await","co_yield","decltype","explicit","noexcept","operator","reflexpr","register","requires","template","typename","unsigned","volatile"],
    ["consteval","constexpr","constinit","co_return","namespace","protected"],
    ["const_cast"],
    ["static_cast"],
    ["dynamic_cast","synchronized","thread_local"],
    ["atomic_cancel","atomic_commit","static_assert"],
    [],
    ["atomic_noexcept"],
    ["reinterpret_cast"] ]

/-- src/cpp.fu:27-41 `ID(id)`.  `find` is the prelude's search for one item (Verif.Prelude.findItem). -/
def ID (id : Str) : Option Str :=
  if id.length < KEYWORDS.length then do
    let bucket ← KEYWORDS[id.length]?
    let idx ← Prelude.findItem (bucket.map str) id
    if idx ≥ 0 then do
      let c ← id[1]?
      some (id.set 1 (Ascii.upperB c))
    else some id
  else some id

/-- src/cpp.fu:43-46. -/
def UNARY : Str := str "++--!*&~"
/-- src/cpp.fu:44. -/
def BINARY : Str := str "+=-=*=/=%=&=|=^=<<=>>==!=&&||"
/-- src/cpp.fu:45. -/
def ASSIGN2 : Str := str "+=-=*=/=%=&=|=^="
/-- src/cpp.fu:46. -/
def ASSIGN3 : Str := str "<<=>>="

/-- src/cpp.fu:48-53 `hasAssignment`. -/
def hasAssignment (op : Str) : Option Bool := do
  if op = str "=" then some true
  else if op.length = 2 then do
    if ← Prelude.has ASSIGN2 (.many op) then some true else some false
  else if op.length = 3 then Prelude.has ASSIGN3 (.many op)
  else some false

/-- src/cpp.fu:55-58 `hasBinary`. -/
def hasBinary (op : Str) : Option Bool := Prelude.has BINARY (.many op)

/-- src/cpp.fu:68-72 `hasPostfix`. -/
def hasPostfix (op : Str) : Bool := decide (op = str "postfix++") || decide (op = str "postfix--")

/-- src/cpp.fu:60-66 `hasUnary`. -/
def hasUnary (op : Str) : Option Bool := if op.length > 2 then some (hasPostfix op) else Prelude.has UNARY (.many op)

/-- src/cpp.fu:74-77 `hasOperator`. -/
def hasOperator (op : Str) : Option Bool := do
  if ← hasBinary op then some true else hasUnary op

end Verif.Cpp

import Verif.Basic
/-!
# Specification: names in C++ and in a function body

Independent of the code: what a C++ identifier is, and how C++ block scopes resolve a name.
-/
namespace Verif.Cgen.Spec
open Verif

/-- [lex.name], for the basic characters. -/
def letter (c : Byte) : Prop :=
  (97 ≤ c.toNat ∧ c.toNat ≤ 122) ∨ (65 ≤ c.toNat ∧ c.toNat ≤ 90) ∨ c.toNat = 95
def digit (c : Byte) : Prop := 48 ≤ c.toNat ∧ c.toNat ≤ 57

instance (c : Byte) : Decidable (letter c) := by unfold letter; infer_instance
instance (c : Byte) : Decidable (digit c) := by unfold digit; infer_instance

/-- An identifier: a letter or underscore, then letters, underscores and digits. -/
def Identifier (s : Str) : Prop := ∃ c t, s = c :: t ∧ letter c ∧ ∀ b ∈ t, letter b ∨ digit b

/-- What happens, in order, while the body of one fu function is emitted: a block is entered or left, a local variable
(identified by its number) is declared or mentioned, a global is mentioned by its C++ name. -/
inductive Ev
  | enter | leave | declare (loc : Int) | use (loc : Int) | global (id : Str)
  deriving DecidableEq, Repr

/-- The fu program is scoped: a local has a non-zero number, is declared once, and is mentioned only where it is in scope.
`open_` is the stack of open blocks with their locals, `seen` all locals declared so far. -/
def Scoped : List (List Int) → List Int → List Ev → Prop
  | _, _, [] => True
  | sc, seen, .enter :: t => Scoped ([] :: sc) seen t
  | sc, seen, .leave :: t => ∃ s s' r, sc = s :: s' :: r ∧ Scoped (s' :: r) seen t
  | sc, seen, .declare l :: t => l ≠ 0 ∧ l ∉ seen ∧ ∃ s r, sc = s :: r ∧ Scoped ((l :: s) :: r) (l :: seen) t
  | sc, seen, .use l :: t => l ∈ sc.flatten ∧ Scoped sc seen t
  | sc, seen, .global _ :: t => Scoped sc seen t

/-- What the mentions of the program refer to: a local, or something global. -/
def meant : List Ev → List (Option Int)
  | [] => []
  | .use l :: t => some l :: meant t
  | .global _ :: t => none :: meant t
  | _ :: t => meant t

/-- The same things in the emitted C++: braces, declarations of a name (standing for a local), and names - possibly
qualified with `::`. -/
inductive CEv
  | enter | leave | declare (name : Str) (loc : Int) | name (qualified : Bool) (name : Str)
  deriving DecidableEq, Repr

/-- C++ name lookup [basic.lookup.unqual]: the innermost block that declares the name wins; if there is none the name is
looked up outside the function. -/
def lookup (env : List (List (Str × Int))) (n : Str) : Option Int :=
  (env.flatten.find? fun p => p.1 = n).map (·.2)

/-- What the names of the emitted C++ refer to.  `none`: a compile error - the same name declared twice in one block, or
unbalanced braces. -/
def resolve : List (List (Str × Int)) → List CEv → Option (List (Option Int))
  | _, [] => some []
  | env, .enter :: t => resolve ([] :: env) t
  | _ :: s' :: r, .leave :: t => resolve (s' :: r) t
  | _, .leave :: _ => none
  | s :: r, .declare n l :: t => if (s.map (·.1)).contains n then none else resolve (((n, l) :: s) :: r) t
  | [], .declare _ _ :: _ => none
  | env, .name q n :: t => (resolve env t).map ((if q then none else lookup env n) :: ·)

end Verif.Cgen.Spec

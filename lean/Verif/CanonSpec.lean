import Verif.Canon
import Verif.TargetProps
/-!
# C33: what type names mean, and when one type can stand for another

Names are described by trees: a plain name, an array, or a name with generic labels.
-/
namespace Verif.Canon
open Verif Verif.Helpers

mutual
/-- a type: a plain name, an array of qualified items, or a plain name labelled with the templates that made it -/
inductive Ty where
  | name (s : Str)
  | arr (q : BitVec 32) (item : Ty)
  | gen (base : Str) (labels : Labels)
/-- the arguments of a template: at least one qualified type -/
inductive Args where
  | one (q : BitVec 32) (t : Ty)
  | cons (q : BitVec 32) (t : Ty) (rest : Args)
/-- at least one template with its arguments -/
inductive Labels where
  | last (template : Target.Packed) (a : Args)
  | more (template : Target.Packed) (a : Args) (rest : Labels)
end

/-- the two varints naming a template -/
def encT (t : Target.Packed) : Str := enc (Target.modid t) ++ enc (Target.globid t)

mutual
/-- the name, written out -/
def Ty.render : Ty → Str
  | .name s => s
  | .arr q t => str "[" ++ (enc q ++ t.render) ++ str "]"
  | .gen b ls => b ++ str "(" ++ ls.render ++ str ")"
def Args.render : Args → Str
  | .one q t => enc q ++ t.render
  | .cons q t rest => enc q ++ t.render ++ str ":" ++ rest.render
def Labels.render : Labels → Str
  | .last t a => encT t ++ a.render
  | .more t a rest => encT t ++ a.render ++ str "|" ++ rest.render
end

/-- a name without punctuation -/
def Plain (s : Str) : Prop :=
  s ≠ [] ∧ s.head? ≠ some (ch '[') ∧ ∀ b ∈ s, b ≠ ch '(' ∧ b ≠ ch ')' ∧ b ≠ ch ':' ∧ b ≠ ch '|'

/-- a template that can be written without a local index -/
def GoodT (t : Target.Packed) : Prop := Target.Good t ∧ Target.locid t = 0#32

mutual
/-- plain names have no punctuation in them, templates are global declarations -/
def Ty.Ok : Ty → Prop
  | .name s => Plain s
  | .arr _ t => t.Ok
  | .gen b ls => Plain b ∧ ls.Ok
def Args.Ok : Args → Prop
  | .one _ t => t.Ok
  | .cons _ t rest => t.Ok ∧ rest.Ok
def Labels.Ok : Labels → Prop
  | .last t a => GoodT t ∧ a.Ok
  | .more t a rest => GoodT t ∧ a.Ok ∧ rest.Ok
end

mutual
/-- does the name mention a template? -/
def Ty.deep : Ty → Bool
  | .name _ => false
  | .arr _ t => t.deep
  | .gen _ _ => true
def Args.deep : Args → Bool
  | .one _ t => t.deep
  | .cons _ t rest => t.deep || rest.deep
end

/-- the arguments, as a list -/
def Args.toList : Args → List (BitVec 32 × Ty)
  | .one q t => [(q, t)]
  | .cons q t rest => (q, t) :: rest.toList

/-- the labels, as a list -/
def Labels.toList : Labels → List (Target.Packed × Args)
  | .last t a => [(t, a)]
  | .more t a rest => (t, a) :: rest.toList

def Labels.all (f : Target.Packed → Args → Bool) : Labels → Bool
  | .last t a => f t a
  | .more t a rest => f t a && rest.all f

mutual
/-- What the code decides for names that follow `p` and `p'` (nothing, or the qualifiers of an item). -/
def accepts (p : Str) (h : Ty) (p' : Str) : Ty → Bool
  | .gen b' ls' =>
    match h with
    | .gen b ls => (p ++ b).head? == (p' ++ b').head? && ls.all fun t a => hasLabel t a ls'
    | h => p ++ h.render == p' ++ b'
  | g => p ++ h.render == p' ++ g.render
/-- ... some argument of the host accepts its counterpart, before one list runs out -/
def someArg (ah : Args) : Args → Bool
  | .one q' t' => match ah with
    | .one q t => accepts (enc q) t (enc q') t'
    | .cons .. => false
  | .cons q' t' rest' => match ah with
    | .one .. => false
    | .cons q t rest => accepts (enc q) t (enc q') t' || someArg rest rest'
/-- ... the guest has a label of that template which the host's arguments accept -/
def hasLabel (t : Target.Packed) (ah : Args) : Labels → Bool
  | .last t' ag => t' == t && if !ah.deep && !ag.deep then ah.render == ag.render else ah.deep && ag.deep && someArg ah ag
  | .more t' ag rest =>
    (t' == t && if !ah.deep && !ag.deep then ah.render == ag.render else ah.deep && ag.deep && someArg ah ag) || hasLabel t ah rest
end

/-- What the code decides about a host and a guest: arrays by their items, everything else by name and labels. -/
def acceptsTop (h g : Ty) : Bool :=
  match h, g with
  | .arr q h, .arr q' g => accepts (enc q) h (enc q') g
  | _, .arr _ _ => false
  | h, g => accepts [] h [] g

end Verif.Canon

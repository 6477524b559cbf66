import Verif.Canon
import Verif.Lifetime
/-!
# Types: assignability, super- and intersection types, relaxing - src/types.fu

`Quals` is `u32`, `VFacts` a set of flags.  `SELF_TEST` checks are left out.  `none` is a fault (an exception from the
name comparison, a malformed lifetime, or recursion that does not end).
-/
namespace Verif.Types
open Verif

/-- src/usage.fu:6-8 -/
def q_mutref : BitVec 32 := 1#32 <<< 0
/-- src/usage.fu:7 -/
def q_rx_copy : BitVec 32 := 1#32 <<< 1
/-- src/usage.fu:8 -/
def q_rx_resize : BitVec 32 := 1#32 <<< 2

/-- src/module.fu:383-402 (`VFacts`) -/
abbrev VFacts := BitVec 8
/-- src/module.fu:386 -/
def AlwaysFalse : VFacts := 2#8
/-- src/module.fu:387 -/
def Typename : VFacts := 4#8
/-- src/module.fu:401 -/
def LeftAligned : VFacts := 8#8
/-- src/module.fu:402 -/
def RightAligned : VFacts := 16#8

/-- src/module.fu:364-375 (`ValueType`, `Type`): a type with an empty lifetime is a value, otherwise a reference -/
structure T where
  quals : BitVec 32
  vfacts : VFacts
  canon : Str
  lifetime : Str
  deriving DecidableEq

/-- src/types.fu:74, 78 -/
def is_never (t : T) : Bool := t.canon == str "never"
/-- src/types.fu:75, 79 -/
def is_zeroes (t : T) : Bool := t.canon == str "zeroes"
/-- src/types.fu:75 (`t_zeroes`) -/
def t_zeroes : T := ⟨0, 0, str "zeroes", []⟩
/-- src/quals.fu:50-53 (`is_sliceable`); on an empty name the code reads out of bounds -/
def is_sliceable (t : T) : Bool := t.canon.head? == some (ch '[')

/-- src/types.fu:120-132 (`areVFactsAssignable`) -/
def areVFactsAssignable (host guest : VFacts) : Bool := host &&& guest == host
/-- src/types.fu:134-135 (`areQualsAssignable`) -/
def areQualsAssignable (host guest : BitVec 32) : Bool := host &&& guest == host
/-- src/types.fu:137-138 (`isLifetimeAssignable`) -/
def isLifetimeAssignable (host guest : Str) : Bool := host.isEmpty || !guest.isEmpty

/-- src/types.fu:145-157 (`isAssignableAsArgument`); the names are compared only if the qualifiers match -/
def isAssignableAsArgument (host guest : T) (dontMatchZeroes : Bool) : Option Bool :=
  if areVFactsAssignable host.vfacts guest.vfacts then
    (if areQualsAssignable host.quals guest.quals then (Canon.isCanonAssignable host.canon guest.canon).toOption else some false).bind
      fun named => some (named || (!dontMatchZeroes && is_zeroes guest && host.quals &&& q_mutref == 0#32 && !is_never host))
  else some false

/-- src/types.fu:159-163 (`isAssignable`) -/
def isAssignable (host guest : T) (dontMatchZeroes asArgument : Bool := false) : Option Bool := do
  let r ← isAssignableAsArgument host guest dontMatchZeroes
  some (r && (asArgument || isLifetimeAssignable host.lifetime guest.lifetime))

/-- src/types.fu:225-244 (`definitType`); an absent type is not modelled -/
def definitType (t : T) (asTypename : Bool) : T :=
  let t := if is_never t then t_zeroes else t
  let t := { t with quals := t.quals &&& ~~~q_mutref }
  let t := if t.lifetime.isEmpty then t else { t with lifetime := Lifetime.Region_ZEROES }
  let t := { t with vfacts := AlwaysFalse ||| if asTypename then Typename else 0#8 }
  if is_sliceable t then { t with vfacts := t.vfacts ||| (LeftAligned ||| RightAligned) } else t

/-- src/types.fu:430-447 (`type_trySuper`) with at most `n` nested calls; the inner `none` is "no common supertype" -/
def trySuper : Nat → T → T → Bool → Option (Option T)
  | 0, _, _, _ => none
  | n + 1, a, b, dontMatchZeroes => do
    let canon ← (Canon.trySuper a.canon b.canon).toOption
    if canon = [] then
      if is_zeroes a && !dontMatchZeroes then trySuper n b (definitType b true) false
      else if is_zeroes b && !dontMatchZeroes then trySuper n a (definitType a true) false
      else some none
    else
      (if a.lifetime.isEmpty || b.lifetime.isEmpty then some [] else Lifetime.Lifetime_union a.lifetime b.lifetime).bind
        fun lifetime => some (some ⟨a.quals &&& b.quals, a.vfacts &&& b.vfacts, canon, lifetime⟩)

/-- src/types.fu:449-472 (`type_tryIntersect`) -/
def tryIntersect (a b : T) : Option (Option T) := do
  let canon ← (Canon.tryIntersect a.canon b.canon).toOption
  if canon = [] then some none
  else
    let lifetime ← Lifetime.Lifetime_inter a.lifetime b.lifetime
    if lifetime.isEmpty && (!a.lifetime.isEmpty || !b.lifetime.isEmpty) then some none
    else some (some ⟨a.quals ||| b.quals, a.vfacts ||| b.vfacts, canon, lifetime⟩)

/-- src/types.fu:530-533 (`will_relax`) -/
def will_relax (t slot : T) (mask : BitVec 32) : BitVec 32 := (t.quals &&& ~~~slot.quals) &&& mask

/-- src/types.fu:535-540 (`try_relax`): what was given up, and the type afterwards -/
def try_relax (t slot : T) (mask : BitVec 32) : BitVec 32 × T :=
  let w := will_relax t slot mask
  (w, { t with quals := t.quals &&& ~~~w })

/-- src/types.fu:547-589 (`mask_retval_relaxable`) -/
def mask_retval_relaxable (t : T) (relaxed : BitVec 32) : Option (BitVec 32) := do
  let regions ← Lifetime.Lifetime_each t.lifetime
  let args := regions.filter fun (r, _, _) => Lifetime.isArgIdx r
  let paths ← args.mapM fun (_, _, ps) => Lifetime.parsePaths ps
  if args.isEmpty then some 0#32
  else
    let withoutDereferences := paths.any fun ps => ps.any fun p => p.length == 1
    let decay := if withoutDereferences then t.quals &&& (q_rx_copy ||| q_rx_resize) else 0#32
    some (relaxed &&& q_mutref ||| if relaxed &&& decay == decay then decay else 0#32)

/-- src/types.fu:114 (`is_rx_copy`) -/
def is_rx_copy (t : T) : Bool := t.quals &&& q_rx_copy != 0#32
/-- src/types.fu:115 (`is_rx_resize`), as written -/
def is_rx_resize (t : T) : Bool := t.quals &&& q_rx_copy != 0#32

end Verif.Types

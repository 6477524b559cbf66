import Verif.Field
/-! # The places of fields: specification

A type has parts; those that are not divided any further are counted, and those of a struct lie one after the other. -/
namespace Verif.Field

/-- how many undivided parts values of these types have together: one each for a built-in, an array and an enum, as many as the members have for a
struct or union -/
inductive Count (decls : List Decl) : List Ty → Nat → Prop where
  | nil : Count decls [] 0
  | nothing {ts n} : Count decls ts n → Count decls (.nothing :: ts) n
  | prim {ts n} : Count decls ts n → Count decls (.prim :: ts) (n + 1)
  | slice {ts n} : Count decls ts n → Count decls (.slice :: ts) (n + 1)
  | enum {k : Nat} {ms ts n} : decls[k]? = some ⟨.prim, ms⟩ → Count decls ts n → Count decls (.user k :: ts) (n + 1)
  | parts {k : Nat} {kd ms m ts n} : decls[k]? = some ⟨kd, ms⟩ → kd ≠ .prim → Count decls ms m → Count decls ts n →
      Count decls (.user k :: ts) (m + n)

/-- where a field of a field of … of a value of a type is: `At decls t path offset count u` - the parts `[offset, offset + count)` of the value, of type `u`.
Structs only: the members of a union are all in the same place. -/
inductive At (decls : List Decl) : Ty → List Nat → Nat → Nat → Ty → Prop where
  | self {t c} : Count decls [t] c → At decls t [] 0 c t
  | field {k i : Nat} {ms : List Ty} {t p a o c u} : decls[k]? = some ⟨.struct, ms⟩ → ms[i]? = some t → Count decls (ms.take i) a →
      At decls t p o c u → At decls (.user k) (i :: p) (a + o) c u

end Verif.Field

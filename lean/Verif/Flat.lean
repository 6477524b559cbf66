import Verif.Prelude
/-!
# Model of src/flat.fu: sorted flat sets, maps and counted sets

Keys are of any type with the three-way comparison `cmp` that fu's `<>` resolves to.  Lengths and indices are natural
numbers (the `int` overflow of `hi + lo` in `bfind` needs more than 2^30 keys).  `none` is an out-of-bounds fault.
-/
namespace Verif.Flat

variable {K V : Type}

/-- include/fu/vec.h `insert(i, x)`, for `i ≤ len`. -/
def insertAt {α : Type} (l : List α) (i : Nat) (x : α) : List α := l.take i ++ x :: l.drop i

/-- include/fu/vec.h `splice(i, 1)`: delete the item at `i`. -/
def spliceAt {α : Type} (l : List α) (i : Nat) : List α := l.take i ++ l.drop (i + 1)

/-- The two continuations of `bfind`: `hit(i)` or `miss(i)`. -/
inductive Found
  | hit (i : Nat) | miss (i : Nat)
  deriving DecidableEq, Repr

/-- src/flat.fu:43-60 the binary search loop. -/
def bfindLoop (cmp : K → K → Int) (keys : List K) (key : K) (lo hi : Nat) : Option Found :=
  if lo < hi then
    match keys[(hi + lo) / 2]? with
    | none => none
    | some k =>
      if cmp k key = 0 then some (.hit ((hi + lo) / 2))
      else if cmp k key < 0 then bfindLoop cmp keys key ((hi + lo) / 2 + 1) hi
      else bfindLoop cmp keys key lo ((hi + lo) / 2)
  else some (.miss lo)
termination_by hi - lo

/-- src/flat.fu:33-61 `bfind`. -/
def bfind (cmp : K → K → Int) (keys : List K) (key : K) : Option Found := bfindLoop cmp keys key 0 keys.length

/-- src/flat.fu:63-74 `Set.has`. -/
def has (cmp : K → K → Int) (keys : List K) (key : K) : Option Bool :=
  match bfind cmp keys key with
  | none => none
  | some (.hit _) => some true
  | some (.miss _) => some false

/-- src/flat.fu:76-88 `Set.add(key)`. -/
def add (cmp : K → K → Int) (keys : List K) (key : K) : Option (List K × Bool) :=
  match bfind cmp keys key with
  | none => none
  | some (.hit _) => some (keys, false)
  | some (.miss i) => some (insertAt keys i key, true)

/-- src/flat.fu:160-172 `Set.remove(key)`. -/
def remove (cmp : K → K → Int) (keys : List K) (key : K) : Option (List K × Bool) :=
  match bfind cmp keys key with
  | none => none
  | some (.hit i) => some (spliceAt keys i, true)
  | some (.miss _) => some (keys, false)

/-- src/flat.fu:444-447 `struct Map`: the keys and, in parallel, the values. -/
structure Map (K V : Type) where
  keys : List K
  vals : List V
  deriving DecidableEq

/-- src/flat.fu:90-105 `Set.update`, and src/flat.fu:477-481 `Map.set`. -/
def Map.set (cmp : K → K → Int) (m : Map K V) (key : K) (value : V) : Option (Map K V × Bool) :=
  match bfind cmp m.keys key with
  | none => none
  | some (.hit i) => if i < m.vals.length then some (⟨m.keys, m.vals.set i value⟩, false) else none
  | some (.miss i) => some (⟨insertAt m.keys i key, insertAt m.vals i value⟩, true)

/-- src/flat.fu:107-124 `Set.ref`, and src/flat.fu:483-487 `Map.ref`: find or insert `init()`, giving the index of the
value in `vals` (the code returns a reference to it).  `init` failing (`none`) is an exception that leaves the function
before anything is inserted. -/
def Map.ref (cmp : K → K → Int) (m : Map K V) (key : K) (init : Option V) : Option (Map K V × Option Nat) :=
  match bfind cmp m.keys key with
  | none => none
  | some (.hit i) => if i < m.vals.length then some (m, some i) else none
  | some (.miss i) =>
    match init with
    | none => some (m, none)
    | some v =>
      let m' : Map K V := ⟨insertAt m.keys i key, insertAt m.vals i v⟩
      if i < m'.vals.length then some (m', some i) else none

/-- src/flat.fu:126-144 `Set.if`, and src/flat.fu:489-493 `Map.if`: `visit` gets the value by reference (its first result
is the value it leaves there) and may call `remove` (its second result). -/
def Map.ifHas (cmp : K → K → Int) (m : Map K V) (key : K) (visit : V → V × Bool) : Option (Map K V × Bool) :=
  match bfind cmp m.keys key with
  | none => none
  | some (.miss _) => some (m, false)
  | some (.hit i) =>
    match m.vals[i]? with
    | none => none
    | some v =>
      let m1 : Map K V := ⟨m.keys, m.vals.set i (visit v).1⟩
      some (if (visit v).2 then ⟨spliceAt m1.keys i, spliceAt m1.vals i⟩ else m1, true)

/-- src/flat.fu:146-158 `Set.get`, and src/flat.fu:453-455 `Map.get`: `[]`, the default value, when the key is missing. -/
def Map.get (cmp : K → K → Int) (m : Map K V) (dflt : V) (key : K) : Option V :=
  match bfind cmp m.keys key with
  | none => none
  | some (.hit i) => m.vals[i]?
  | some (.miss _) => some dflt

/-- src/flat.fu:449-451 `Map.has`. -/
def Map.has (cmp : K → K → Int) (m : Map K V) (key : K) : Option Bool := Verif.Flat.has cmp m.keys key

/-- src/flat.fu:495-502 `Map.remove`. -/
def Map.remove (cmp : K → K → Int) (m : Map K V) (key : K) : Option (Map K V × Bool) := m.ifHas cmp key fun v => (v, true)

/-- src/flat.fu:504-507 `Map.clear`. -/
def Map.clear (_ : Map K V) : Map K V := ⟨[], []⟩

/-- src/flat.fu:457-462 `Map.each`: the calls `fn(vals[i], key: keys[i])`, in order, as a list. -/
def Map.each (m : Map K V) : Option (List (K × V)) :=
  (List.range m.vals.length).mapM fun i =>
    match m.keys[i]?, m.vals[i]? with
    | some k, some v => some (k, v)
    | _, _ => none

/-! ## Merging two sets in place -/

/-- src/flat.fu:182-201 the loop of `add(a, b)` and the final append. -/
def addAllLoop (cmp : K → K → Int) (a b : List K) (x y : Nat) : List K :=
  if h : x < a.length ∧ y < b.length then
    if cmp (a[x]'h.1) (b[y]'h.2) ≥ 0 then
      if cmp (a[x]'h.1) (b[y]'h.2) ≠ 0 then addAllLoop cmp (insertAt a x (b[y]'h.2)) b (x + 1) (y + 1)
      else addAllLoop cmp a b (x + 1) (y + 1)
    else addAllLoop cmp a b (x + 1) y
  else if y < b.length then a ++ b.drop y else a
termination_by (a.length - x) + (b.length - y)
decreasing_by all_goals first | omega | (simp [insertAt]; omega)

/-- src/flat.fu:178-202 `add(ref a, b)`. -/
def addAll (cmp : K → K → Int) (a b : List K) : List K := addAllLoop cmp a b 0 0

/-- src/flat.fu:208-226 the loop of `keep(a, b)` and the final `shrink`. -/
def keepLoop (cmp : K → K → Int) (a b : List K) (x y : Nat) : List K :=
  if h : x < a.length ∧ y < b.length then
    if cmp (a[x]'h.1) (b[y]'h.2) = 0 then keepLoop cmp a b (x + 1) (y + 1)
    else if cmp (a[x]'h.1) (b[y]'h.2) > 0 then keepLoop cmp a b x (y + 1)
    else keepLoop cmp (spliceAt a x) b x y
  else if x < a.length then a.take x else a
termination_by (a.length - x) + (b.length - y)
decreasing_by all_goals first | omega | (simp [spliceAt]; omega)

/-- src/flat.fu:204-229 `keep(ref a, b)`. -/
def keep (cmp : K → K → Int) (a b : List K) : List K := keepLoop cmp a b 0 0

/-- src/flat.fu:235-250 the loop of `remove(a, b)`. -/
def removeLoop (cmp : K → K → Int) (a b : List K) (x y : Nat) : List K :=
  if h : x < a.length ∧ y < b.length then
    if cmp (a[x]'h.1) (b[y]'h.2) = 0 then removeLoop cmp (spliceAt a x) b x (y + 1)
    else if cmp (a[x]'h.1) (b[y]'h.2) > 0 then removeLoop cmp a b x (y + 1)
    else removeLoop cmp a b (x + 1) y
  else a
termination_by (a.length - x) + (b.length - y)
decreasing_by all_goals first | omega | (simp [spliceAt]; omega)

/-- src/flat.fu:231-253 `remove(ref a, b)`. -/
def removeAll (cmp : K → K → Int) (a b : List K) : List K := removeLoop cmp a b 0 0

/-! ## The merge combinator -/

/-- The callbacks of `merge`: each gets the item, the two positions and the caller's state, and either goes on (`.inl`) or
returns from the caller (`.inr`). -/
structure Calls (K σ ρ : Type) where
  left : K → Nat → Nat → σ → σ ⊕ ρ
  both : K → Nat → Nat → σ → σ ⊕ ρ
  right : K → Nat → Nat → σ → σ ⊕ ρ

/-- src/flat.fu:258-294 `merge`.  With the `left_or_both` callback the code takes the branch `cmp <= 0` of lines 275-279,
which is the branches of lines 280-288 with `left = both = left_or_both`; so one form models both. -/
def merge {σ ρ : Type} (cmp : K → K → Int) (c : Calls K σ ρ) (l r : List K) (li ri : Nat) (s : σ) : σ ⊕ ρ :=
  if hl : li < l.length then
    if hr : ri < r.length then
      if cmp l[li] r[ri] = 0 then
        match c.both l[li] li ri s with
        | .inr v => .inr v
        | .inl s' => merge cmp c l r (li + 1) (ri + 1) s'
      else if cmp l[li] r[ri] < 0 then
        match c.left l[li] li ri s with
        | .inr v => .inr v
        | .inl s' => merge cmp c l r (li + 1) ri s'
      else
        match c.right r[ri] li ri s with
        | .inr v => .inr v
        | .inl s' => merge cmp c l r li (ri + 1) s'
    else
      match c.left l[li] li ri s with
      | .inr v => .inr v
      | .inl s' => merge cmp c l r (li + 1) ri s'
  else
    if hr : ri < r.length then
      match c.right r[ri] li ri s with
      | .inr v => .inr v
      | .inl s' => merge cmp c l r li (ri + 1) s'
    else .inl s
termination_by (l.length - li) + (r.length - ri)

/-- src/flat.fu:301-303 the callbacks of `has_inter`. -/
def hasInterCalls : Calls K Unit Bool := ⟨fun _ _ _ s => .inl s, fun _ _ _ _ => .inr true, fun _ _ _ s => .inl s⟩

/-- src/flat.fu:299-306 `has_inter`. -/
def hasInter (cmp : K → K → Int) (l r : List K) : Bool :=
  match merge cmp hasInterCalls l r 0 0 () with
  | .inr v => v
  | .inl _ => false

/-- src/flat.fu:404-411 `misses_some`. -/
def missesSome (cmp : K → K → Int) (l r : List K) : Bool :=
  match merge cmp (⟨fun _ _ _ s => .inl s, fun _ _ _ s => .inl s, fun _ _ _ _ => .inr true⟩ : Calls K Unit Bool) l r 0 0 () with
  | .inr v => v
  | .inl _ => false

/-- src/flat.fu:322-340 the callbacks of `inter`; the state is `(useResult, result)`. -/
def interCalls (l : List K) : Calls K (Bool × List K) Empty where
  left := fun _ li _ s => .inl (if s.1 then s else (true, l.take li))
  right := fun _ _ _ s => .inl s
  both := fun item _ _ s => .inl (if s.1 then (true, s.2 ++ [item]) else s)

/-- `useResult ? result : l` (src/flat.fu:342, 374, 398). -/
def pick (l : List K) : (Bool × List K) ⊕ Empty → List K
  | .inl s => if s.1 then s.2 else l
  | .inr e => nomatch e

/-- src/flat.fu:308-343 `inter`. -/
def inter (cmp : K → K → Int) (l r : List K) : List K :=
  if r.length < l.length then pick r (merge cmp (interCalls r) r l 0 0 (false, []))
  else pick l (merge cmp (interCalls l) l r 0 0 (false, []))

/-- src/flat.fu:358-372 the callbacks of `union`. -/
def unionCalls (l : List K) : Calls K (Bool × List K) Empty where
  left := fun item _ _ s => .inl (if s.1 then (true, s.2 ++ [item]) else s)
  both := fun item _ _ s => .inl (if s.1 then (true, s.2 ++ [item]) else s)
  right := fun item li _ s => .inl (if s.1 then (true, s.2 ++ [item]) else (true, s.2 ++ l.take li ++ [item]))

/-- src/flat.fu:345-375 `union`. -/
def union (cmp : K → K → Int) (l r : List K) : List K :=
  if r.length > l.length then pick r (merge cmp (unionCalls r) r l 0 0 (false, []))
  else pick l (merge cmp (unionCalls l) l r 0 0 (false, []))

/-- src/flat.fu:384-396 the callbacks of `diff`, which merges `remove` (left) with `from` (right). -/
def diffCalls (frm : List K) : Calls K (Bool × List K) Empty where
  left := fun _ _ ri s => .inl (if s.1 then s else (true, frm.take ri))
  both := fun _ _ ri s => .inl (if s.1 then s else (true, frm.take ri))
  right := fun item _ _ s => .inl (if s.1 then (true, s.2 ++ [item]) else s)

/-- src/flat.fu:377-399 `diff`. -/
def diff (cmp : K → K → Int) (frm rm : List K) : List K := pick frm (merge cmp (diffCalls frm) rm frm 0 0 (false, []))

/-! ## Counted sets -/

/-- `i32` arithmetic (src/flat.fu:512 `CountType = i32`). -/
def wrap32 (n : Int) : Int := Int.bmod n (2 ^ 32)

/-- src/flat.fu:549-554 `CountedSet.incr`: `counts.ref(key)++`, true when the count was 0. -/
def incr (cmp : K → K → Int) (m : Map K Int) (key : K) : Option (Map K Int × Bool) :=
  match m.ref cmp key (some 0) with
  | some (m', some i) =>
    match m'.vals[i]? with
    | none => none
    | some n => some (⟨m'.keys, m'.vals.set i (wrap32 (n + 1))⟩, decide (n = 0))
  | _ => none

/-- src/flat.fu:558-561 the visitor of `try_decr`: `if !(--count) remove()`. -/
def decrVisit (n : Int) : Int × Bool := (wrap32 (n - 1), decide (wrap32 (n - 1) = 0))

/-- src/flat.fu:556-565 `CountedSet.try_decr`: true when the key was removed. -/
def tryDecr (cmp : K → K → Int) (m : Map K Int) (key : K) : Option (Map K Int × Bool) :=
  match bfind cmp m.keys key with
  | none => none
  | some (.miss _) => some (m, false)
  | some (.hit i) =>
    match m.vals[i]? with
    | none => none
    | some n => (m.ifHas cmp key decrVisit).map fun p => (p.1, (decrVisit n).2)

/-- src/flat.fu:532-534 `CountedSet.count`. -/
def count (cmp : K → K → Int) (m : Map K Int) (key : K) : Option Int := m.get cmp 0 key

/-- src/flat.fu:526-530 `CountedSet.total`. -/
def total (m : Map K Int) : Option Int := (m.each).map fun l => l.foldl (fun t kv => wrap32 (t + kv.2)) 0

end Verif.Flat

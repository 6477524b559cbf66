import Verif.Basic

/-!
# C95: the command line

Models `cli_handle` (src/cli.fu 12-241): what `fu` does for a list of words.

Simplifications: `join` stands for `path::join(cwd, ·)` (lib/path.fu 90-95, modelled in Verif.Path); the bits of
`BuildScheme` are kept apart; what is thrown is kept as a kind, not as a text.  Not modelled: what is printed, and what is
done with the result (`compile_and_build`).
-/

namespace Verif.Cli

/-- What `tryGetScheme` gives (src/build.fu 269-283). -/
inductive Scheme where
  | debug | reldeb | retail
deriving DecidableEq, Repr

/-- The texts thrown. -/
inductive Err where
  | already | path | scheme | unknown | noFile | leftover | bothTests
deriving DecidableEq, Repr

/-- The variables at src/cli.fu 67-83. -/
structure C where
  src : Str := []
  cpp : Str := []
  obj : Str := []
  bin : Str := []
  emitCpp : Bool := false
  emitObj : Bool := false
  emitBin : Bool := false
  scheme : Option Scheme := none
  run : Bool := false
  watch : Bool := false
  hotswap : Bool := false
  shared : Bool := false
  nocache : Bool := false
  notest : Bool := false
  test : Bool := false
deriving DecidableEq, Repr

/-- What `compile_and_build` is given (src/cli.fu 222-227). -/
structure Job where
  fname : Str
  bin : Str
  src : Str
  cpp : Str
  obj : Str
  scheme : Option Scheme
  run : Bool
  watch : Bool
  hotswap : Bool
  shared : Bool
  nocache : Bool
  notest : Bool
  test : Bool
  cflags : List Str
  libs : List Str
deriving DecidableEq, Repr

/-- How it ends. -/
inductive Out where
  /-- `cli_handle_special` -/
  | nothing | help | version
  /-- the tests, and the compiler again -/
  | self
  | err (e : Err)
  | go (j : Job)
  /-- the loop does not end -/
  | hang
deriving DecidableEq, Repr

/-- `opt`, `val` and `idx`. -/
structure P where
  opt : Str
  val : Str
  idx : Nat
deriving DecidableEq, Repr

/-- `next()` (src/cli.fu 16-22); the index is added by the caller. -/
def next (argv : List Str) (idx : Nat) : Str := argv[idx]?.getD []

/-- `abs` (src/cli.fu 62-64) -/
def abs (join : Str → Str) (p : Str) : Str := if p ≠ [] ∧ p.head? ≠ some (ch '-') then join p else []

/-- `option` (src/cli.fu 98-113): also the new `dir` and whether the bit was set. -/
def option (join : Str → Str) (argv : List Str) (short long : Str) (s : P) (dir : Str) (on : Bool) :
    Except Err (P × Str × Bool) :=
  if s.opt = short ∨ s.opt = long then
    if s.opt = long then
      if dir ≠ [] then .error .already
      else if abs join s.val = [] then .error .path
      else .ok (⟨[], next argv s.idx, s.idx + 1⟩, abs join s.val, true)
    else .ok ({ s with opt := [] }, dir, true)
  else .ok (s, dir, on)

/-- The rest of the turn, once the options that take a path have been tried (src/cli.fu 120-172). -/
def flags (c : C) (opt : Str) : Except Err C :=
  let opt := if opt = str "d" then str "--debug" else opt
  if opt = str "--debug" ∨ opt = str "--reldeb" ∨ opt = str "--retail" then
    if c.scheme.isSome then .error .scheme
    else .ok { c with scheme := if opt = str "--debug" then some .debug
                                else if opt = str "--reldeb" then some .reldeb else some .retail }
  else if opt = str "--watch" ∨ opt = str "w" then .ok { c with watch := true }
  else if opt = str "--run" ∨ opt = str "r" then .ok { c with run := true }
  else if opt = str "--hotswap" ∨ opt = str "h" then .ok { c with hotswap := true }
  else if opt = str "--shared" then .ok { c with shared := true }
  else if opt = str "--nocache" then .ok { c with nocache := true }
  else if opt = str "--notest" then .ok { c with notest := true }
  else if opt = str "--test" ∨ opt = str "t" then .ok { c with test := true }
  else if opt ≠ [] then .error .unknown
  else .ok c

/-- One turn of the loop, after `opt` and `val` are set (src/cli.fu 115-172). -/
def turn (join : Str → Str) (argv : List Str) (c : C) (s : P) : Except Err (C × P) :=
  match option join argv (str "-") (str "--src") s c.src false with
  | .error e => .error e
  | .ok (s, d, _) =>
    match option join argv (str "c") (str "--cpp") s c.cpp c.emitCpp with
    | .error e => .error e
    | .ok (s, d1, e1) =>
      match option join argv (str "o") (str "--obj") s c.obj c.emitObj with
      | .error e => .error e
      | .ok (s, d2, e2) =>
        match option join argv (str "b") (str "--bin") s c.bin c.emitBin with
        | .error e => .error e
        | .ok (s, d3, e3) =>
          match flags { c with src := d, cpp := d1, emitCpp := e1, obj := d2, emitObj := e2, bin := d3, emitBin := e3 } s.opt with
          | .error e => .error e
          | .ok c => .ok (c, s)

/-- `opt` and `val` at the start of a turn (src/cli.fu 88-96). -/
def start (argv : List Str) (val : Str) (idx : Nat) : P :=
  if val[1]? ≠ some (ch '-') then
    let v := ch '-' :: val.drop 2
    if v = str "-" then ⟨val.drop 1 |>.take 1, next argv idx, idx + 1⟩ else ⟨val.drop 1 |>.take 1, v, idx⟩
  else ⟨val, next argv idx, idx + 1⟩

/-- The loop (src/cli.fu 86-173); the fuel runs out only if it does not end. -/
def loop (join : Str → Str) (argv : List Str) : Nat → C → Str → Nat → Option (Except Err (C × Str × Nat))
  | 0, _, _, _ => none
  | n + 1, c, val, idx =>
    if 1 < val.length ∧ val.head? = some (ch '-') then
      match turn join argv c (start argv val idx) with
      | .error e => some (.error e)
      | .ok (c, s) => loop join argv n c s.val s.idx
    else some (.ok (c, val, idx))

/-- The inner loop of `passthrough` (src/cli.fu 198-205): what is added to `which`, and `idx` after it. -/
def take (argv : List Str) : Nat → Nat → Option (List Str × Nat)
  | 0, _ => none
  | n + 1, idx =>
    let val := next argv idx
    if val = [] ∨ (str "--").isPrefixOf val then some ([], idx + 1)
    else (take argv n (idx + 1)).map fun r => (val :: r.1, r.2)

/-- `passthrough` (src/cli.fu 194-208) -/
def passthrough (argv : List Str) (fuel : Nat) (opt : Str) (idx : Nat) : Option (List Str × Nat) :=
  if next argv idx = opt then (take argv fuel (idx + 1)).map fun r => (r.1, r.2 - 1)
  else some ([], idx + 1 - 1)

/-- src/cli.fu 188-191: `bin ||=` -/
def defaultBin (fname : Str) : Str :=
  if (str ".fu").isSuffixOf fname then fname.take (fname.length - 3) else fname ++ str ".exe"

/-- Everything behind the loop (src/cli.fu 175-227). -/
def finish (join : Str → Str) (cwd : Str) (argv : List Str) (fuel : Nat) (c : C) (val : Str) (idx : Nat) : Out :=
  let src := if c.emitCpp ∧ c.src = [] then cwd else c.src
  let cpp := if c.emitCpp ∧ c.cpp = [] then src else c.cpp
  let fname := abs join val
  if fname = [] then .err .noFile
  else
    let bin := if c.emitBin ∧ c.bin = [] then defaultBin fname else c.bin
    match passthrough argv fuel (str "--cflags") idx with
    | none => .hang
    | some (cc, idx) =>
      match passthrough argv fuel (str "--libs") idx with
      | none => .hang
      | some (ld, idx) =>
        if next argv idx ≠ [] then .err .leftover
        else if c.notest ∧ c.test then .err .bothTests
        else .go ⟨fname, bin, src, cpp, c.obj, c.scheme, c.run, c.watch, c.hotswap, c.shared, c.nocache, c.notest, c.test,
          cc, ld⟩

/-- How many letters there are: enough turns for the loops. -/
def letters (argv : List Str) : Nat := argv.length + 2 + (argv.map (·.length + 1)).sum

/-- `cli_handle` (src/cli.fu 12-227) -/
def cli (join : Str → Str) (cwd : Str) (argv : List Str) : Out :=
  if argv.length = 1 then .nothing
  else if argv.getLast? = some (str "--help") then .help
  else if argv.getLast? = some (str "--version") then .version
  else if argv.length = 2 ∧ argv[1]? = some (str "self") then .self
  else
    match loop join argv (letters argv) {} (next argv 1) 2 with
    | none => .hang
    | some (.error e) => .err e
    | some (.ok (c, val, idx)) => finish join cwd argv (letters argv) c val idx

end Verif.Cli

import Verif.Basic
/-! # Replacing functions while the program runs

include/dl/hotswap.cpp. The instance (`get_inst`, 300-374) is there from the start; printing is left out, and of the two ways to tell
the path of a library the one with `dladdr` is modelled, which glibc takes too (`RTLD_DI_LINKMAP` is no macro there). What the system
answers (`dlopen`, `dlsym`, `dlinfo`, `rename`, `readlink`) is a parameter of each step. A signal in manual mode may come between any
two statements of the program; otherwise a step is a whole call. -/
namespace Verif.Hotswap

/-- a function's address; null is `none` where it can be null -/
abbrev Ptr := Nat
/-- an open library -/
abbrev Handle := Nat
/-- the contents of a file -/
abbrev File := Nat
/-- which file is where -/
abbrev Files := Str → Option File

/-- include/dl/hotswap.cpp:36-49 -/
structure Loader where
  filename : Str
  handle : Option Handle
  handle_old : Option Handle
  abs_path : Option Str
  dladdr_symbol : Option Ptr
  deriving DecidableEq

/-- include/dl/hotswap.cpp:51-55: the slot is a number -/
structure Item where
  symbol : Str
  slot : Nat
  deriving DecidableEq

/-- where the program is inside `hotswap_here` (260-272, 416-419): not in it; before the test of the flag; before it is cleared; before
`doReload`; in it or after it (what `doReload` does is done at once when it begins; a signal may still come before it is over) -/
inductive At where
  | out | test | clear | reload | loading
  deriving DecidableEq

/-- include/dl/hotswap.cpp:24-31, 57-61, 271-295, and the slots -/
structure St where
  reloading : Bool
  manual : Bool
  signalled : Bool
  cb : Option Nat
  libs : List Loader
  items : List Item
  slots : List Ptr
  files : Files
  at_ : At
  /-- callbacks made (292-295) -/
  calls : List Nat
  /-- how many times `doReload` began -/
  reloads : Nat

/-- what the system answers during one attempt to load -/
structure Sys where
  /-- 119-129: the path of the library a function is in, if it can be told -/
  info : Ptr → Option Str
  /-- 147-151: the number at the end of the temporary name, as text -/
  suffix : Str
  /-- 156, 165: `rename` is refused -/
  deny : Bool
  denyBack : Bool
  /-- 164, 172, 197 -/
  dlopen : Files → Str → Option Handle
  /-- 188: `readlink("/proc/self/exe")` -/
  exe : Option Str
  dlsym : Handle → Str → Option Ptr

/-- `rename(from, to)` where it is not refused: `none` if there is no such file -/
def rename (fs : Files) (a b : Str) : Option Files :=
  match fs a with
  | none => none
  | some f => some fun p => if p = b then some f else if p = a then none else fs p

/-- include/dl/hotswap.cpp:192-199: the name of the file, in the directory of the executable -/
def exePath (exe name : Str) : Option Str :=
  if ch '/' ∈ exe then some ((exe.reverse.dropWhile (· ≠ ch '/')).reverse ++ name) else none

/-- include/dl/hotswap.cpp:182-185: the size of the buffer -/
def bufsiz (n : Nat) : Nat := if 16 * 1024 < 2 * n then 2 * n else 16 * 1024

/-- include/dl/hotswap.cpp:171-204 (`OpenWithoutRenaming`) -/
def openPlain (y : Sys) (fs : Files) (ld : Loader) : Option Handle :=
  match y.dlopen fs ld.filename with
  | some h => some h
  | none =>
    if ld.abs_path ≠ none then none else
    match y.exe with
    | none => none
    | some exe =>
      if exe.length > 0 ∧ exe.length < bufsiz (ld.filename.length + 1) - (ld.filename.length + 1) then
        (exePath exe ld.filename).bind (y.dlopen fs)
      else none

/-- include/dl/hotswap.cpp:106-143: the path is looked up if it is not known -/
def resolve (y : Sys) (ld : Loader) : Loader :=
  if ld.abs_path = none then
    match ld.dladdr_symbol with
    | none => ld
    | some p => { ld with abs_path := y.info p }
  else ld

/-- include/dl/hotswap.cpp:145-206: the new handle and the files afterwards -/
def openNew (y : Sys) (fs : Files) (ld : Loader) : Option Handle × Files :=
  match ld.abs_path with
  | none => (openPlain y fs ld, fs)
  | some p =>
    match if y.deny then none else rename fs p (p ++ y.suffix) with
    | none => (openPlain y fs ld, fs)
    | some fs' =>
      (y.dlopen fs' (p ++ y.suffix), (if y.denyBack then fs' else (rename fs' (p ++ y.suffix) p).getD fs'))

/-- include/dl/hotswap.cpp:96-241 (`try_reload(Loader&)`), without the flag: the loader and whether it was loaded -/
def tryLoad (y : Sys) (fs : Files) (ld : Loader) : (Loader × Bool) × Files :=
  match (openNew y fs (resolve y ld)).1 with
  | none => ((resolve y ld, false), (openNew y fs (resolve y ld)).2)
  | some h => (({ resolve y ld with handle_old := (resolve y ld).handle, handle := some h, dladdr_symbol := none }, true), (openNew y fs (resolve y ld)).2)

/-- include/dl/hotswap.cpp:66-94 (`try_reload(Item&, Loader&)`) -/
def tryItem (y : Sys) (h : Handle) (a : List Ptr × Option Ptr) (i : Item) : List Ptr × Option Ptr :=
  match y.dlsym h i.symbol with
  | some p => (a.1.set i.slot p, some p)
  | none => a

/-- include/dl/hotswap.cpp:254-257: the loop of `doReload`; the system may answer differently for each library -/
def reloadLibs (items : List Item) : List (Loader × Sys) → Files → List Ptr → (List Loader × Files) × List Ptr
  | [], fs, slots => (([], fs), slots)
  | (ld, y) :: rest, fs, slots =>
    let r := tryLoad y fs ld
    let a := if r.1.2 then
        match r.1.1.handle with
        | some h => items.foldl (tryItem y h) (slots, r.1.1.dladdr_symbol)
        | none => (slots, r.1.1.dladdr_symbol)
      else (slots, r.1.1.dladdr_symbol)
    let t := reloadLibs items rest r.2 a.1
    (({ r.1.1 with dladdr_symbol := a.2 } :: t.1.1, t.1.2), t.2)

/-- include/dl/hotswap.cpp:250-258 (`doReload`), 99 -/
def doReload (ys : Nat → Sys) (s : St) : St :=
  let r := reloadLibs s.items (s.libs.zipIdx.map fun p => (p.1, ys p.2)) s.files s.slots
  { s with libs := r.1.1, files := r.1.2, slots := r.2, reloading := s.reloading || !s.libs.isEmpty, reloads := s.reloads + 1 }

inductive Ev where
  /-- `hotswap_init(symbol, fnptr, fallback)` -/
  | init (symbol : Str) (fallback : Ptr)
  /-- `hotswap_here()` is called -/
  | here
  /-- the next statement of `hotswap_here` -/
  | go (ys : Nat → Sys)
  /-- the signal comes -/
  | signal (ys : Nat → Sys)
  | cbAdd (udata : Nat)
  | cbRemove
  /-- someone else changes the files -/
  | build (files : Files)

/-- include/dl/hotswap.cpp:382-414 -/
def init (s : St) (symbol : Str) (fallback : Ptr) : St :=
  if s.reloading then { s with slots := s.slots ++ [fallback] }
  else { s with slots := s.slots ++ [fallback], items := s.items ++ [⟨symbol, s.slots.length⟩] }

/-- include/dl/hotswap.cpp:294-297 -/
def callBack (s : St) : St :=
  match s.cb with
  | none => s
  | some u => { s with calls := s.calls ++ [u] }

/-- include/dl/hotswap.cpp:274-298 (`onSIGUSR1_reloadLibs`) -/
def onSignal (ys : Nat → Sys) (s : St) : St :=
  callBack (if s.manual then { s with signalled := true } else doReload ys s)

/-- include/dl/hotswap.cpp:260-272 (`onManualReload`), a statement at a time -/
def go (ys : Nat → Sys) (s : St) : St :=
  match s.at_ with
  | .out => s
  | .test => if s.signalled then { s with at_ := .clear } else { s with at_ := .out }
  | .clear => { s with signalled := false, at_ := .reload }
  | .reload => { doReload ys s with at_ := .loading }
  | .loading => { s with at_ := .out }

/-- a step of the program, of the system, or of someone else; calls are made outside `hotswap_here` -/
def step (s : St) : Ev → St
  | .init symbol fallback => if s.at_ = .out then init s symbol fallback else s
  | .here => if s.at_ = .out then { s with manual := true, at_ := .test } else s
  | .go ys => go ys s
  | .signal ys => onSignal ys s
  | .cbAdd u => { s with cb := some u }
  | .cbRemove => { s with cb := none }
  | .build files => { s with files := files }

/-- the beginning: one library, which is not loaded (314-368) -/
def start (name : Str) (files : Files) : St :=
  ⟨false, false, false, none, [⟨name, none, none, none, none⟩], [], [], files, .out, [], 0⟩

end Verif.Hotswap

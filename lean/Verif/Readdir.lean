import Verif.Mkdir
/-! # Reading directories

lib/fs.fu:166-254 (`readdir`), lib/unsafe.fu:10-12 with include/fu/str.h:23-30 (where a name is put), watch.fu:37-50 (`collect`),
lib/fs.fu:87-141 (`executable`). -/
namespace Verif.Readdir
open Verif.Mkdir (Env names cstr)

/-- lib/fs.fu:157-164: include/dirent.h's numbers -/
def DT_UNKNOWN : Nat := 0
def DT_DIR : Nat := 4
def DT_REG : Nat := 8

def EMFILE : Nat := 24

structure Entry where
  name : Str
  type : Nat
deriving DecidableEq

/-- what reading a directory gives: entries, and then the end or (`bad`) an error -/
structure Listing where
  entries : List Entry
  bad : Bool

/-- The system: what the directories hold (it does not change meanwhile) and how many may be open. -/
structure Sys where
  cwd : List Str
  ls : List Str → Except Nat Listing
  max : Nat

/-- the directory a path means -/
def Sys.dir (S : Sys) (p : Str) : List Str := Env.dir ⟨S.cwd, fun _ => none⟩ p

/-- opendir(3), with `n` directories open. An error is never 0 to the program (lib/fs.fu:187-191). -/
def opendir (S : Sys) (n : Nat) (p : Str) : Except Nat Listing :=
  if S.max ≤ n then .error EMFILE else
  match S.ls (S.dir (cstr p)) with
  | .ok l => .ok l
  | .error e => .error (if e = 0 then Mkdir.ENOENT else e)

/-- What a caller's block does with an entry: something to its own variables and then be done, call `recurse` and go on with the
error it gives, or leave the loop for good (`break`, `return`, `continue` of a loop outside). -/
inductive Act (σ : Type) where
  | done (s : σ)
  | recurse (s : σ) (k : Nat → σ → Act σ)
  | leave (s : σ)

/-- the caller's variables, and how many directories are open -/
structure St (σ : Type) where
  user : σ
  opened : Nat

/-- how a piece of code ends: goes on (with an errno) or leaves -/
inductive Out (σ : Type) where
  | ret (err : Nat) (s : St σ)
  | left (s : St σ)

def Out.st {σ : Type} : Out σ → St σ
  | .ret _ s => s
  | .left s => s

/-- the block is run, `recurse` being what lib/fs.fu:249 says -/
def perform {σ : Type} (recurse : St σ → Option (Out σ)) : Act σ → Nat → Option (Out σ)
  | .done s, n => some (.ret 0 ⟨s, n⟩)
  | .leave s, n => some (.left ⟨s, n⟩)
  | .recurse s k, n =>
    match recurse ⟨s, n⟩ with
    | none => none
    | some (.left t) => some (.left t)
    | some (.ret e t) => perform recurse (k e t.user) t.opened

/-- lib/fs.fu:204-251: the loop. `copy`: the block wants a string, so that names are copied into `buf`
(include/fu/str.h:23-26: behind what is there). -/
def loop {σ : Type} (copy : Bool) (block : Str → Nat → Str → σ → Act σ) (visit : Str → St σ → Option (Out σ)) (path : Str) :
    Str → List Entry → St σ → Option (Out σ)
  | _, [], s => some (.ret 0 s)
  | buf, e :: es, s =>
    let name := if copy then buf ++ e.name else e.name
    let buf := if copy then buf ++ e.name else buf
    if name = str "." ∨ name = str ".." then loop copy block visit path buf es s
    else
      match perform (visit (path ++ name)) (block name e.type (path ++ name) s.user) s.opened with
      | none => none
      | some (.left t) => some (.left t)
      | some (.ret _ t) => loop copy block visit path buf es t

/-- lib/fs.fu:171-173 -/
def slashed (p : Str) : Str := if p.getLast? = some (ch '/') then p else p ++ [ch '/']

/-- the directory is closed, however the code ends (lib/fs.fu:196-201). What `closedir` answers is put into a variable that has been
returned already. -/
def close {σ : Type} : Out σ → Out σ
  | .ret e s => .ret e { s with opened := s.opened - 1 }
  | .left s => .left { s with opened := s.opened - 1 }

/-- lib/fs.fu:166-254 (`readdir`). The number bounds how deep the calls may nest; `none` if that is not enough. -/
def readdir {σ : Type} (S : Sys) (copy : Bool) (block : Str → Nat → Str → σ → Act σ) : Nat → Str → St σ → Option (Out σ)
  | 0, _, _ => none
  | n + 1, path, s =>
    let path := slashed path
    match opendir S s.opened (path ++ [0]) with
    | .error e => some (.ret e s)
    | .ok l => (loop copy block (readdir S copy block n) path [] l.entries { s with opened := s.opened + 1 }).map close

/-! ### watch.fu -/

def endsWith (p w : Str) : Bool := w.length ≤ p.length ∧ p.drop (p.length - w.length) = w

/-- watch.fu:39-46: what `collect` does with an entry -/
def collectBlock (_ : Str) (type : Nat) (path : Str) (files : List Str) : Act (List Str) :=
  if endsWith path (str ".fu") then .done (files ++ [path])
  else if type = DT_DIR ∨ type = DT_UNKNOWN then .recurse files fun _ s => .done s
  else .done files

/-- watch.fu:37-47 (`collect`); the error is not looked at -/
def collect (S : Sys) (n : Nat) (dir : Str) (s : St (List Str)) : Option (St (List Str)) :=
  (readdir S false collectBlock n dir s).map Out.st

/-- watch.fu:35-50: the files watched -/
def watched (S : Sys) (n : Nat) : Option (List Str) :=
  (collect S n (str "./src") ⟨[], 0⟩).bind fun s => (collect S n (str "./lib") s).map St.user

/-! ### the name of the program -/

def PATH_MAX : Nat := 4096

/-- lib/fs.fu:117-120, on Linux: `junk` is what the buffer holds at first; readlink(2) writes at most PATH_MAX bytes and no null -/
def executable (junk : Str) (target : Option Str) : Str :=
  match target with
  | none => []
  | some t =>
    let buf := t.take PATH_MAX ++ junk.drop (t.take PATH_MAX).length
    if 0 < (t.take PATH_MAX).length ∧ (t.take PATH_MAX).length < PATH_MAX then buf.take PATH_MAX else []

end Verif.Readdir

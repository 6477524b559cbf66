import Verif.BuildProps
import Verif.BuildScan
/-!
# The object cache: cases that meet the hypotheses, and what goes wrong without them: C81
-/
namespace Verif.Build
open Verif

/-! ## A hash without collisions -/

/-- Items one after the other, each with its kind and length. -/
def enc : List (Item (List Nat)) → List Nat
  | [] => []
  | .text s :: t => 0 :: s.length :: (s.map BitVec.toNat ++ enc t)
  | .num u :: t => 1 :: u.length :: (u ++ enc t)

theorem enc_inj : ∀ a b, enc a = enc b → a = b
  | [], [], _ => rfl
  | [], .text _ :: _, h => by simp [enc] at h
  | [], .num _ :: _, h => by simp [enc] at h
  | .text _ :: _, [], h => by simp [enc] at h
  | .num _ :: _, [], h => by simp [enc] at h
  | .text _ :: _, .num _ :: _, h => by simp [enc] at h
  | .num _ :: _, .text _ :: _, h => by simp [enc] at h
  | .text s :: a, .text s' :: b, h => by
    rw [enc, enc, List.cons.injEq, List.cons.injEq] at h
    obtain ⟨h1, h2⟩ := List.append_inj h.2.2 (by simp [h.2.1])
    have : s = s' := (List.map_inj_right (f := BitVec.toNat) (fun x y e => BitVec.eq_of_toNat_eq e)).1 h1
    rw [this, enc_inj a b h2]
  | .num s :: a, .num s' :: b, h => by
    rw [enc, enc, List.cons.injEq, List.cons.injEq] at h
    obtain ⟨h1, h2⟩ := List.append_inj h.2.2 h.2.1
    rw [h1, enc_inj a b h2]

def exHash : Hash (List Nat) := ⟨enc, enc_inj⟩

/-! ## A compiler that depends on all it may depend on -/

open Classical in
noncomputable def ideal (L : Lang) : Tools (Str × Str × Str × List Tree) (Str × List (Str × Str × Str × List Tree)) where
  cc g e u fs := if h : ∃ ts n, trees L fs n u.fname u.incs = some ts then some (g, e, u.src, own h.choose) else none
  ld l xs := some (l, xs)

theorem trees_unique {L : Lang} {fs : Str → Option Str} {n m : Nat} {p : Str} {incs : List Str} {a b : List Tree}
    (h1 : trees L fs n p incs = some a) (h2 : trees L fs m p incs = some b) : a = b := by
  have e1 := trees_mono_of (m := max n m) (fun q t h => tree_mono (Nat.le_max_left n m) h) p incs a h1
  have e2 := trees_mono_of (m := max n m) (fun q t h => tree_mono (Nat.le_max_right n m) h) p incs b h2
  rw [e1] at e2; exact Option.some.inj e2

theorem ideal_determined (L : Lang) : Determined L (ideal L) := by
  intro g e u u' fs fs' n n' ts ts' h h' hs ho
  have a : ∃ ts n, trees L fs n u.fname u.incs = some ts := ⟨ts, n, h⟩
  have b : ∃ ts n, trees L fs' n u'.fname u'.incs = some ts := ⟨ts', n', h'⟩
  have ea : a.choose = ts := trees_unique a.choose_spec.choose_spec h
  have eb : b.choose = ts' := trees_unique b.choose_spec.choose_spec h'
  unfold ideal
  dsimp only
  rw [dif_pos a, dif_pos b, ea, eb, hs, ho]

/-! ## The language of the code, and a compiler that one can run -/

def lang : Lang := ⟨scanIncludes, includeTarget (str "/fu/include/") (fun n => List.replicate n 0#8)⟩

/-- All texts that a file leads to. -/
def textOf (L : Lang) (fs : Str → Option Str) : Nat → Str → List Str
  | 0, _ => []
  | n + 1, p =>
    match fs p with
    | none => []
    | some text => text :: (L.scan text).flatMap fun i => match L.target p i with
      | none => []
      | some q => textOf L fs n q

/-- An object is the texts it was made from; the includes are those in the text of the unit. -/
def plain : Tools (List Str) (List (List Str)) where
  cc g e u fs := some (g :: e :: u.src :: (lang.scan u.src).flatMap fun i => match lang.target u.fname i with
    | none => []
    | some q => textOf lang fs 5 q)
  ld _ xs := some xs

def disk (l : List (Str × Str)) : Str → Option Str := fun p => (l.find? (·.1 = p)).map (·.2)

/-- A world in which nothing changes. -/
def still (l : List (Str × Str)) : World := ⟨disk l, fun _ => 0, fun _ => disk l, fun _ => 0⟩

def opts (extra : Str) : Opts := ⟨str "g++ -O3 ", extra, str "", false⟩

def results (rs : List Run) : List (Option (List (List Str))) := runs exHash lang plain 6 ⟨fun _ => none, fun _ => none⟩ rs

/-! ## It works -/

def unitA : TUnit := ⟨str "/p/a.fu", str "#include \"x.h\"\nint a;", [str "\"x.h\""]⟩

/-- `x.h` includes `y.h`; `y.h` is edited between two builds, then restored. -/
def run1 (y : Str) : Run := ⟨opts [], true, still [(str "/p/x.h", str "#include \"y.h\""), (str "/p/y.h", y)], [unitA]⟩

example : results [run1 (str "1"), run1 (str "2"), run1 (str "1")] =
    [some [[str "g++ -O3 ", [], unitA.src, str "#include \"y.h\"", str "1"]],
     some [[str "g++ -O3 ", [], unitA.src, str "#include \"y.h\"", str "2"]],
     some [[str "g++ -O3 ", [], unitA.src, str "#include \"y.h\"", str "1"]]] := by
  decide +kernel

/-- The unit of the example has a tree, if `y.h` has no includes. -/
theorem exTree (y : Str) (hs : scanIncludes y = []) : ∀ u ∈ (run1 y).units, (trees lang (run1 y).world.src 6 u.fname u.incs).isSome := by
  intro u hu
  rw [List.mem_singleton.1 hu]
  have ht : lang.target (str "/p/a.fu") (str "\"x.h\"") = some (str "/p/x.h") := by decide +kernel
  have ht' : lang.target (str "/p/x.h") (str "\"y.h\"") = some (str "/p/y.h") := by decide +kernel
  have hsx : lang.scan (str "#include \"y.h\"") = [str "\"y.h\""] := by decide +kernel
  have hx : (run1 y).world.src (str "/p/x.h") = some (str "#include \"y.h\"") := rfl
  have hy : (run1 y).world.src (str "/p/y.h") = some y := rfl
  have ty : tree lang (run1 y).world.src 1 (str "/p/y.h") = some (.node y []) :=
    (tree_succ _ _ _ _).2 ⟨y, [], rfl, hy, by rw [show lang.scan y = [] from hs]; rfl⟩
  have tx : tree lang (run1 y).world.src 2 (str "/p/x.h") = some (.node (str "#include \"y.h\"") [.node y []]) :=
    (tree_succ _ _ _ _).2 ⟨_, _, rfl, hx, by rw [hsx, trees_cons]; exact ⟨_, [], rfl, by rw [ht']; exact ty, rfl⟩⟩
  have : trees lang (run1 y).world.src 6 (str "/p/a.fu") [str "\"x.h\""] = some [.node (str "#include \"y.h\"") [.node y []]] := by
    rw [trees_cons]; exact ⟨_, [], rfl, by rw [ht]; exact tree_mono (by omega) tx, rfl⟩
  show (trees lang (run1 y).world.src 6 (str "/p/a.fu") [str "\"x.h\""]).isSome = true
  rw [this]; rfl

/-- The theorem applies, for any number of edits of `y.h`. -/
example (ys : List Str) (hys : ∀ y ∈ ys, scanIncludes y = []) (i : Nat) (y : Str) (hi : ys[i]? = some y) :
    (runs exHash lang (ideal lang) 6 ⟨fun _ => none, fun _ => none⟩ (ys.map run1))[i]? =
      some (fresh (ideal lang) (opts []) (run1 y).world.src [unitA]) := by
  refine (builds_fresh_partial (H := exHash) (ideal_determined lang) 6 [] (ys.map run1) ?_ i (run1 y) (by rw [List.getElem?_map, hi]; rfl)).2
    (fun p => ⟨rfl, fun _ => rfl⟩) (exTree y (hys y (List.mem_of_getElem? hi)))
  intro r hr
  obtain ⟨y, hy, rfl⟩ := List.mem_map.1 hr
  exact ⟨rfl, fun p _ i => rfl, .inl (exTree y (hys y hy))⟩

/-- A header that changes while the compiler runs: the build fails, and the next one is right. -/
example :
    let during : World := ⟨disk [(str "/p/x.h", str "1")], fun _ => 0, fun _ => disk [(str "/p/x.h", str "2")], fun _ => 1⟩
    results [⟨opts [], true, during, [unitA]⟩, ⟨opts [], true, still [(str "/p/x.h", str "1")], [unitA]⟩] =
      [none, some [[str "g++ -O3 ", [], unitA.src, str "1"]]] := by
  decide +kernel

/-! ## Findings -/

/-- Compiler flags given by the user (`--cflags`), warnings and `-I` directories are not part of the key: after changing them, the
objects of the old ones are linked. -/
theorem cflags_ignored :
    let w := still [(str "/p/x.h", str "1")]
    results [⟨opts (str "-DN=1"), true, w, [unitA]⟩, ⟨opts (str "-DN=2"), true, w, [unitA]⟩] =
      [some [[str "g++ -O3 ", str "-DN=1", unitA.src, str "1"]], some [[str "g++ -O3 ", str "-DN=1", unitA.src, str "1"]]] ∧
    fresh plain (opts (str "-DN=2")) w.src [unitA] = some [[str "g++ -O3 ", str "-DN=2", unitA.src, str "1"]] := by
  decide +kernel

/-- The runtime (src/build.fu:453-461, 640-649): its text includes files, but none is listed in `includes_headers`. -/
def runtime : TUnit := ⟨str "/fu/include/fu/_fulib.cpp", str "#include <fu/decstr.cpp>", []⟩

/-- Editing a file that the runtime includes has no effect. -/
theorem runtime_stale :
    let w (s : Str) := still [(str "/fu/include/fu/decstr.cpp", s)]
    results [⟨opts [], true, w (str "1"), [runtime]⟩, ⟨opts [], true, w (str "2"), [runtime]⟩] =
      [some [[str "g++ -O3 ", [], runtime.src, str "1"]], some [[str "g++ -O3 ", [], runtime.src, str "1"]]] ∧
    fresh plain (opts []) (w (str "2")).src [runtime] = some [[str "g++ -O3 ", [], runtime.src, str "2"]] := by
  decide +kernel

/-- `a.h` and `b.h` include each other, `a.h` also includes `c.h`.  One unit includes `a.h`, another one `b.h`. -/
def circle (c : Str) : World := still [(str "/p/a.h", str "#include \"b.h\"\n#include \"c.h\""), (str "/p/b.h", str "#include \"a.h\""), (str "/p/c.h", c)]

def circleUnits : List TUnit := [⟨str "/p/1.fu", str "#include \"a.h\"", [str "\"a.h\""]⟩, ⟨str "/p/2.fu", str "#include \"b.h\"", [str "\"b.h\""]⟩]

/-- With circular includes, the hash of a header within the circle misses some of the files it leads to: after an edit of `c.h`,
the second unit is not compiled again, though it depends on it. -/
theorem circular_includes_stale :
    ∃ a a' b b', results [⟨opts [], true, circle (str "1"), circleUnits⟩, ⟨opts [], true, circle (str "2"), circleUnits⟩] =
      [some [a, b], some [a', b]] ∧ fresh plain (opts []) (circle (str "2")).src circleUnits = some [a', b'] ∧ b ≠ b' := by
  let f := fresh plain (opts []) (circle (str "1")).src circleUnits
  let g := fresh plain (opts []) (circle (str "2")).src circleUnits
  refine ⟨(f.getD [])[0]!, (g.getD [])[0]!, (f.getD [])[1]!, (g.getD [])[1]!, ?_, ?_, ?_⟩ <;> decide +kernel

/-- On its own, the same edit of the same unit is noticed. -/
theorem circular_includes_alone :
    results [⟨opts [], true, circle (str "1"), circleUnits.drop 1⟩, ⟨opts [], true, circle (str "2"), circleUnits.drop 1⟩] =
      [fresh plain (opts []) (circle (str "1")).src (circleUnits.drop 1), fresh plain (opts []) (circle (str "2")).src (circleUnits.drop 1)] := by
  decide +kernel

end Verif.Build

import Verif.Readdir
import Verif.MkdirProps
/-! # Reading directories: what is found, in which order, and what is closed -/
namespace Verif.Readdir
open Verif.Mkdir (Env names cstr)

/-! ## Every directory opened is closed, however the caller's code leaves the loop -/

theorem perform_opened {σ : Type} (rec : St σ → Option (Out σ)) (h : ∀ s r, rec s = some r → r.st.opened = s.opened) :
    ∀ (a : Act σ) (n : Nat) (r : Out σ), perform rec a n = some r → r.st.opened = n := by
  intro a
  induction a with
  | done s => intro n r hr; simp only [perform, Option.some.injEq] at hr; subst hr; rfl
  | leave s => intro n r hr; simp only [perform, Option.some.injEq] at hr; subst hr; rfl
  | recurse s k ih =>
    intro n r hr
    unfold perform at hr
    cases hv : rec ⟨s, n⟩ with
    | none => rw [hv] at hr; cases hr
    | some o =>
      have ho := h _ _ hv
      rw [hv] at hr
      cases o with
      | left t => simp only [Option.some.injEq] at hr; subst hr; exact ho
      | ret e t => exact (ih e t.user t.opened r hr).trans ho

theorem loop_opened {σ : Type} (copy : Bool) (block : Str → Nat → Str → σ → Act σ) (visit : Str → St σ → Option (Out σ)) (path : Str)
    (h : ∀ p s r, visit p s = some r → r.st.opened = s.opened) :
    ∀ (es : List Entry) (buf : Str) (s : St σ) (r : Out σ), loop copy block visit path buf es s = some r → r.st.opened = s.opened := by
  intro es
  induction es with
  | nil => intro buf s r hr; simp only [loop, Option.some.injEq] at hr; subst hr; rfl
  | cons e es ih =>
    intro buf s r hr
    simp only [loop] at hr
    generalize (if copy then buf ++ e.name else e.name) = name at hr
    generalize (if copy then buf ++ e.name else buf) = buf' at hr
    by_cases hd : name = str "." ∨ name = str ".."
    · rw [if_pos hd] at hr; exact ih _ _ _ hr
    · rw [if_neg hd] at hr
      cases hp : perform (visit (path ++ name)) (block name e.type (path ++ name) s.user) s.opened with
      | none => rw [hp] at hr; cases hr
      | some o =>
        have ho := perform_opened _ (h _) _ _ _ hp
        rw [hp] at hr
        cases o with
        | left t => simp only [Option.some.injEq] at hr; subst hr; exact ho
        | ret x t => exact (ih _ _ _ hr).trans ho

/-- **Every directory opened is closed**: whatever the block does — recurse any number of times, leave — as many are open after as
before. -/
theorem closed {σ : Type} (S : Sys) (copy : Bool) (block : Str → Nat → Str → σ → Act σ) :
    ∀ (n : Nat) (path : Str) (s : St σ) (r : Out σ), readdir S copy block n path s = some r → r.st.opened = s.opened := by
  intro n
  induction n with
  | zero => intro path s r h; cases h
  | succ n ih =>
    intro path s r h
    simp only [readdir] at h
    cases ho : opendir S s.opened (slashed path ++ [0]) with
    | error e => rw [ho] at h; simp only [Option.some.injEq] at h; subst h; rfl
    | ok l =>
      rw [ho] at h
      simp only at h
      cases hl : loop copy block (readdir S copy block n) (slashed path) [] l.entries { s with opened := s.opened + 1 } with
      | none => rw [hl] at h; cases h
      | some o =>
        have h1 := loop_opened _ _ _ _ ih _ _ _ _ hl
        rw [hl] at h
        simp only [Option.map_some, Option.some.injEq] at h
        subst h
        cases o <;> simp only [close, Out.st] at h1 ⊢ <;> omega

/-! ## A bound that is enough stays enough -/

theorem perform_mono {σ : Type} (f g : St σ → Option (Out σ)) (h : ∀ s r, f s = some r → g s = some r) :
    ∀ (a : Act σ) (n : Nat) (r : Out σ), perform f a n = some r → perform g a n = some r := by
  intro a
  induction a with
  | done s => intro n r hr; exact hr
  | leave s => intro n r hr; exact hr
  | recurse s k ih =>
    intro n r hr
    unfold perform at hr ⊢
    cases hv : f ⟨s, n⟩ with
    | none => rw [hv] at hr; cases hr
    | some o =>
      rw [hv] at hr; rw [h _ _ hv]
      cases o with
      | left t => exact hr
      | ret e t => exact ih e t.user t.opened r hr

theorem loop_mono {σ : Type} (copy : Bool) (block : Str → Nat → Str → σ → Act σ) (f g : Str → St σ → Option (Out σ)) (path : Str)
    (h : ∀ p s r, f p s = some r → g p s = some r) :
    ∀ (es : List Entry) (buf : Str) (s : St σ) (r : Out σ), loop copy block f path buf es s = some r → loop copy block g path buf es s = some r := by
  intro es
  induction es with
  | nil => intro buf s r hr; exact hr
  | cons e es ih =>
    intro buf s r hr
    simp only [loop] at hr ⊢
    generalize (if copy then buf ++ e.name else e.name) = name at hr ⊢
    generalize (if copy then buf ++ e.name else buf) = buf' at hr ⊢
    by_cases hd : name = str "." ∨ name = str ".."
    · rw [if_pos hd] at hr ⊢; exact ih _ _ _ hr
    · rw [if_neg hd] at hr ⊢
      cases hp : perform (f (path ++ name)) (block name e.type (path ++ name) s.user) s.opened with
      | none => rw [hp] at hr; cases hr
      | some o =>
        rw [hp] at hr
        rw [perform_mono _ _ (h _) _ _ _ hp]
        cases o with
        | left t => exact hr
        | ret x t => exact ih _ _ _ hr

theorem readdir_succ {σ : Type} (S : Sys) (copy : Bool) (block : Str → Nat → Str → σ → Act σ) :
    ∀ (n : Nat) (path : Str) (s : St σ) (r : Out σ), readdir S copy block n path s = some r → readdir S copy block (n + 1) path s = some r := by
  intro n
  induction n with
  | zero => intro path s r h; cases h
  | succ n ih =>
    intro path s r h
    rw [readdir] at h ⊢
    cases ho : opendir S s.opened (slashed path ++ [0]) with
    | error e => rw [ho] at h; exact h
    | ok l =>
      rw [ho] at h
      simp only at h ⊢
      cases hl : loop copy block (readdir S copy block n) (slashed path) [] l.entries { s with opened := s.opened + 1 } with
      | none => rw [hl] at h; cases h
      | some o => rw [loop_mono _ _ _ _ _ ih _ _ _ _ hl]; rw [hl] at h; exact h

/-- there is one answer: all bounds that are enough give the same -/
theorem one_answer {σ : Type} (S : Sys) (copy : Bool) (block : Str → Nat → Str → σ → Act σ) (n m : Nat) (path : Str) (s : St σ) (r r' : Out σ)
    (h : readdir S copy block n path s = some r) (h' : readdir S copy block m path s = some r') : r = r' := by
  have up : ∀ k n, ∀ r, readdir S copy block n path s = some r → readdir S copy block (n + k) path s = some r := by
    intro k
    induction k with
    | zero => intro n r h; exact h
    | succ k ih => intro n r h; exact readdir_succ S copy block _ _ _ _ (ih n r h)
  have a := up m n r h
  have b := up n m r' h'
  rw [Nat.add_comm] at b
  rw [a] at b
  exact Option.some.inj b

/-! ## What the block is given -/

/-- `.` and `..` -/
def Dot (name : Str) : Prop := name = str "." ∨ name = str ".."

instance (name : Str) : Decidable (Dot name) := inferInstanceAs (Decidable (_ ∨ _))

theorem cstr_null (p : Str) (h : (0 : Byte) ∉ p) : cstr (p ++ [0]) = p := by
  unfold cstr
  induction p with
  | nil => rfl
  | cons c p ih =>
    have hc : c ≠ 0 := fun e => h (by simp [e])
    have := ih (fun hh => h (List.mem_cons_of_mem _ hh))
    rw [List.cons_append, List.takeWhile_cons, if_pos (by simpa using hc), this]

theorem slashed_null (p : Str) (h : (0 : Byte) ∉ p) : (0 : Byte) ∉ slashed p := by
  unfold slashed
  split
  · exact h
  · simp only [List.mem_append, List.mem_singleton, not_or]; exact ⟨h, by decide⟩

theorem opendir_null (S : Sys) (n : Nat) (p : Str) (h : (0 : Byte) ∉ p) (hn : n < S.max) (l : Listing) :
    opendir S n (p ++ [0]) = .ok l ↔ S.ls (S.dir p) = .ok l := by
  unfold opendir
  rw [if_neg (Nat.not_le.2 hn), cstr_null p h]
  cases S.ls (S.dir p) <;> simp

/-- **The block is called once for each entry but `.` and `..`, in the directory's order**, with its name, its type and its path, until
it leaves. -/
theorem each_once {σ : Type} (S : Sys) (f : Str → Nat → Str → σ → Except σ σ) (n : Nat) (path : Str) (s : St σ) (l : Listing)
    (h0 : (0 : Byte) ∉ path) (hm : s.opened < S.max) (hl : S.ls (S.dir (slashed path)) = .ok l) :
    readdir S false (fun name type p u => match f name type p u with | .ok u => .done u | .error u => .leave u) (n + 1) path s =
      some (match (l.entries.filter fun e => ¬ Dot e.name).foldlM (m := Except σ) (fun u e => f e.name e.type (slashed path ++ e.name) u) s.user with
        | .ok u => .ret 0 { s with user := u }
        | .error u => .left { s with user := u }) := by
  have ho := (opendir_null S s.opened (slashed path) (slashed_null _ h0) hm l).2 hl
  rw [readdir]
  simp only [ho]
  have key : ∀ (es : List Entry) (s : St σ) (visit : Str → St σ → Option (Out σ)),
      loop false (fun name type p u => match f name type p u with | .ok u => .done u | .error u => .leave u) visit (slashed path) [] es s =
      some (match (es.filter fun e => ¬ Dot e.name).foldlM (m := Except σ) (fun u e => f e.name e.type (slashed path ++ e.name) u) s.user with
        | .ok u => .ret 0 { s with user := u }
        | .error u => .left { s with user := u }) := by
    intro es
    induction es with
    | nil => intro s visit; rfl
    | cons e es ih =>
      intro s visit
      simp only [loop, Bool.false_eq_true, if_false]
      by_cases hd : e.name = str "." ∨ e.name = str ".."
      · rw [if_pos hd, ih, List.filter_cons_of_neg (by show ¬ decide (¬ Dot e.name) = true; rw [decide_eq_true_eq]; exact fun h => h hd)]
      · rw [if_neg hd, List.filter_cons_of_pos (by show decide (¬ Dot e.name) = true; rw [decide_eq_true_eq]; exact hd), List.foldlM_cons]
        cases hf : f e.name e.type (slashed path ++ e.name) s.user with
        | ok u => simp only [perform]; rw [ih]; rfl
        | error u => rfl
  rw [key]
  generalize (List.foldlM (m := Except σ) _ _ _) = t
  cases t <;> simp [close]

/-! ## Paths -/

theorem slashed_last (p : Str) : (slashed p).getLast? = some (ch '/') := by
  unfold slashed
  split
  · assumption
  · simp

theorem slashed_slashed (p : Str) : slashed (slashed p) = slashed p := by
  rw [slashed, if_pos (slashed_last p)]

theorem ends_slash {d : Str} (h : d.getLast? = some (ch '/')) : ∃ a, d = a ++ [ch '/'] := by
  rcases List.eq_nil_or_concat d with rfl | ⟨a, c, rfl⟩
  · cases h
  · simp only [List.concat_eq_append, List.getLast?_append, List.getLast?_singleton, Option.some_or, Option.some.injEq] at h
    exact ⟨a, by simp [h]⟩

/-- the path of an entry means it -/
theorem path_means (S : Sys) (d name : Str) (hd : d.getLast? = some (ch '/')) (hn : ch '/' ∉ name) (h0 : name ≠ []) :
    S.dir (d ++ name) = S.dir d ++ [name] := by
  obtain ⟨a, rfl⟩ := ends_slash hd
  have n1 := Mkdir.names_slash a name hn
  have n2 := Mkdir.names_slash a [] (by simp)
  rw [if_neg h0] at n1
  rw [if_pos rfl, List.append_nil] at n2
  have hh : (a ++ [ch '/'] ++ name).head? = (a ++ [ch '/']).head? := by cases a <;> rfl
  unfold Sys.dir Env.dir
  rw [hh, List.append_assoc, List.singleton_append, n1, n2]
  split
  · rfl
  · simp

/-- a slash at the end changes nothing, but for the empty path -/
theorem slashed_means (S : Sys) (p : Str) (h : p ≠ []) : S.dir (slashed p) = S.dir p := by
  unfold slashed
  split
  · rfl
  · have n2 := Mkdir.names_slash p [] (by simp)
    rw [if_pos rfl, List.append_nil] at n2
    have hh : (p ++ [ch '/']).head? = p.head? := by cases p with | nil => exact absurd rfl h | cons c p => rfl
    unfold Sys.dir Env.dir
    rw [hh, n2]

/-! ## Errors, recursion and leaving -/

/-- **An error of opening is returned** — and as an error, also if the system gives it no number — and the block is not called. -/
theorem open_fails {σ : Type} (S : Sys) (copy : Bool) (block : Str → Nat → Str → σ → Act σ) (n : Nat) (path : Str) (s : St σ)
    (h0 : (0 : Byte) ∉ path) (h : s.opened ≥ S.max ∨ ∃ e, S.ls (S.dir (slashed path)) = .error e) :
    ∃ x, x ≠ 0 ∧ readdir S copy block (n + 1) path s = some (.ret x s) ∧
      (s.opened < S.max → ∀ e, e ≠ 0 → S.ls (S.dir (slashed path)) = .error e → x = e) := by
  have key : ∃ x, x ≠ 0 ∧ opendir S s.opened (slashed path ++ [0]) = .error x ∧
      (s.opened < S.max → ∀ e, e ≠ 0 → S.ls (S.dir (slashed path)) = .error e → x = e) := by
    unfold opendir
    rw [cstr_null _ (slashed_null _ h0)]
    by_cases hm : S.max ≤ s.opened
    · rw [if_pos hm]; exact ⟨EMFILE, by decide, rfl, fun h => absurd h (Nat.not_lt.2 hm)⟩
    · rw [if_neg hm]
      rcases h with h | ⟨e, h⟩
      · exact absurd h hm
      · rw [h]
        refine ⟨_, ?_, rfl, ?_⟩
        · by_cases h : e = 0
          · rw [if_pos h]; decide
          · rw [if_neg h]; exact h
        · intro _ e' he' hh; cases hh; rw [if_neg he']
  obtain ⟨x, h1, h2, h3⟩ := key
  refine ⟨x, h1, ?_, h3⟩
  rw [readdir]
  simp only [h2]

/-- **`recurse` is the walk of the entry**, and its error is given to the block -/
theorem recurse_gives {σ : Type} (S : Sys) (block : Str → Nat → Str → σ → Act σ) (n : Nat) (path : Str) (s : St σ) (e : Entry) (bad : Bool)
    (u : σ) (f : Nat → σ → σ) (x : Nat) (t : St σ)
    (h0 : (0 : Byte) ∉ path) (hm : s.opened < S.max) (hl : S.ls (S.dir (slashed path)) = .ok ⟨[e], bad⟩) (hd : ¬ Dot e.name)
    (hb : block e.name e.type (slashed path ++ e.name) s.user = .recurse u fun x w => .done (f x w))
    (hr : readdir S false block n (slashed path ++ e.name) ⟨u, s.opened + 1⟩ = some (.ret x t)) :
    readdir S false block (n + 1) path s = some (.ret 0 ⟨f x t.user, s.opened⟩) := by
  have ho := (opendir_null S s.opened (slashed path) (slashed_null _ h0) hm _).2 hl
  have hc := closed S false block n _ _ _ hr
  unfold Dot at hd
  simp only [Out.st] at hc
  rw [readdir]
  simp only [ho, loop, Bool.false_eq_true, if_false, if_neg hd, hb, perform, hr, Option.map_some, close, hc, Nat.add_sub_cancel]

/-- an action that leaves only with `L` so, and does all else with `L` not so -/
def Act.Marked {σ : Type} (L : σ → Prop) : Act σ → Prop
  | .done s => ¬ L s
  | .leave s => L s
  | .recurse s k => ¬ L s ∧ ∀ e u, ¬ L u → (k e u).Marked L

def Out.Marked {σ : Type} (L : σ → Prop) : Out σ → Prop
  | .ret _ s => ¬ L s.user
  | .left s => L s.user

theorem perform_marked {σ : Type} (L : σ → Prop) (rec : St σ → Option (Out σ)) (h : ∀ s r, ¬ L s.user → rec s = some r → r.Marked L) :
    ∀ (a : Act σ) (n : Nat) (r : Out σ), a.Marked L → perform rec a n = some r → r.Marked L := by
  intro a
  induction a with
  | done s => intro n r ha hr; simp only [perform, Option.some.injEq] at hr; subst hr; exact ha
  | leave s => intro n r ha hr; simp only [perform, Option.some.injEq] at hr; subst hr; exact ha
  | recurse s k ih =>
    intro n r ha hr
    unfold perform at hr
    cases hv : rec ⟨s, n⟩ with
    | none => rw [hv] at hr; cases hr
    | some o =>
      have ho := h _ _ ha.1 hv
      rw [hv] at hr
      cases o with
      | left t => simp only [Option.some.injEq] at hr; subst hr; exact ho
      | ret e t => exact ih e t.user t.opened r (ha.2 _ _ ho) hr

theorem loop_marked {σ : Type} (L : σ → Prop) (copy : Bool) (block : Str → Nat → Str → σ → Act σ) (visit : Str → St σ → Option (Out σ)) (path : Str)
    (hb : ∀ n t p u, ¬ L u → (block n t p u).Marked L) (h : ∀ p s r, ¬ L s.user → visit p s = some r → r.Marked L) :
    ∀ (es : List Entry) (buf : Str) (s : St σ) (r : Out σ), ¬ L s.user → loop copy block visit path buf es s = some r → r.Marked L := by
  intro es
  induction es with
  | nil => intro buf s r hs hr; simp only [loop, Option.some.injEq] at hr; subst hr; exact hs
  | cons e es ih =>
    intro buf s r hs hr
    simp only [loop] at hr
    generalize (if copy then buf ++ e.name else e.name) = name at hr
    generalize (if copy then buf ++ e.name else buf) = buf' at hr
    by_cases hd : name = str "." ∨ name = str ".."
    · rw [if_pos hd] at hr; exact ih _ _ _ hs hr
    · rw [if_neg hd] at hr
      cases hp : perform (visit (path ++ name)) (block name e.type (path ++ name) s.user) s.opened with
      | none => rw [hp] at hr; cases hr
      | some o =>
        have ho := perform_marked L _ (h _) _ _ _ (hb _ _ _ _ hs) hp
        rw [hp] at hr
        cases o with
        | left t => simp only [Option.some.injEq] at hr; subst hr; exact ho
        | ret x t => exact ih _ _ _ ho hr

/-- **When the block leaves, everything is left**, from however deep: if the block marks its variables when it leaves, then the walk
is left exactly when they are marked — and the block is never called again (all that is known of it is what it does unmarked). -/
theorem left_marked {σ : Type} (L : σ → Prop) (S : Sys) (copy : Bool) (block : Str → Nat → Str → σ → Act σ)
    (hb : ∀ n t p u, ¬ L u → (block n t p u).Marked L) :
    ∀ (n : Nat) (path : Str) (s : St σ) (r : Out σ), ¬ L s.user → readdir S copy block n path s = some r → r.Marked L := by
  intro n
  induction n with
  | zero => intro path s r _ h; cases h
  | succ n ih =>
    intro path s r hs h
    rw [readdir] at h
    cases ho : opendir S s.opened (slashed path ++ [0]) with
    | error e => simp only [ho, Option.some.injEq] at h; subst h; exact hs
    | ok l =>
      simp only [ho] at h
      cases hl : loop copy block (readdir S copy block n) (slashed path) [] l.entries { s with opened := s.opened + 1 } with
      | none => rw [hl] at h; cases h
      | some o =>
        have := loop_marked L copy block _ _ hb ih _ _ { s with opened := s.opened + 1 } _ hs hl
        rw [hl] at h
        simp only [Option.map_some, Option.some.injEq] at h
        subst h
        cases o <;> exact this

end Verif.Readdir

import Verif.ReaddirSpec
/-! # A walk finds each source file once -/
namespace Verif.Readdir
open Verif.Mkdir (Env names cstr)

theorem endsWith_iff (p : Str) : endsWith p (str ".fu") = true ↔ Source p := by
  unfold endsWith Source
  rw [decide_eq_true_eq]
  constructor
  · rintro ⟨-, h⟩
    exact ⟨p.take (p.length - (str ".fu").length), by
      have := List.take_append_drop (p.length - (str ".fu").length) p
      rwa [h] at this⟩
  · rintro ⟨a, rfl⟩
    refine ⟨by simp, ?_⟩
    rw [List.length_append, Nat.add_sub_cancel, List.drop_left]

/-- what the loop gathers from entries, `P` being what a walk of a directory gathers -/
inductive Parts (P : Str → List Str → Prop) (path : Str) : List Entry → List Str → Prop where
  | nil : Parts P path [] []
  | dot {e : Entry} {es : List Entry} {t : List Str} : Dot e.name → Parts P path es t → Parts P path (e :: es) t
  | source {e : Entry} {es : List Entry} {t : List Str} : ¬ Dot e.name → Source (path ++ e.name) → Parts P path es t →
      Parts P path (e :: es) ((path ++ e.name) :: t)
  | into {e : Entry} {es : List Entry} {q t : List Str} : ¬ Dot e.name → Into e (path ++ e.name) → P (path ++ e.name) q → Parts P path es t →
      Parts P path (e :: es) (q ++ t)
  | other {e : Entry} {es : List Entry} {t : List Str} : ¬ Dot e.name → ¬ Source (path ++ e.name) → ¬ Into e (path ++ e.name) → Parts P path es t →
      Parts P path (e :: es) t

/-- a piece of code only adds to the files: `q` -/
def Adds (s : St (List Str)) (r : Out (List Str)) (q : List Str) : Prop := ∃ e, r = .ret e ⟨s.user ++ q, s.opened⟩

theorem loop_parts (P : Str → List Str → Prop) (path : Str) (visit : Str → St (List Str) → Option (Out (List Str))) (o : Nat)
    (h : ∀ p files r, visit p ⟨files, o⟩ = some r → ∃ q, Adds ⟨files, o⟩ r q ∧ P p q) :
    ∀ (es : List Entry) (files : List Str) (r : Out (List Str)), loop false collectBlock visit path [] es ⟨files, o⟩ = some r →
      ∃ q, r = .ret 0 ⟨files ++ q, o⟩ ∧ Parts P path es q := by
  intro es
  induction es with
  | nil => intro files r hr; simp only [loop, Option.some.injEq] at hr; exact ⟨[], by simp [← hr], .nil⟩
  | cons e es ih =>
    intro files r hr
    simp only [loop, Bool.false_eq_true, if_false] at hr
    by_cases hd : e.name = str "." ∨ e.name = str ".."
    · rw [if_pos hd] at hr
      obtain ⟨q, h1, h2⟩ := ih _ _ hr
      exact ⟨q, h1, .dot hd h2⟩
    · rw [if_neg hd] at hr
      unfold collectBlock at hr
      by_cases hs : Source (path ++ e.name)
      · rw [if_pos ((endsWith_iff _).2 hs)] at hr
        simp only [perform] at hr
        obtain ⟨q, h1, h2⟩ := ih _ _ hr
        exact ⟨(path ++ e.name) :: q, by rw [h1]; simp, .source hd hs h2⟩
      · rw [if_neg (fun hh => hs ((endsWith_iff _).1 hh))] at hr
        by_cases ht : e.type = DT_DIR ∨ e.type = DT_UNKNOWN
        · rw [if_pos ht] at hr
          simp only [perform] at hr
          cases hv : visit (path ++ e.name) ⟨files, o⟩ with
          | none => rw [hv] at hr; cases hr
          | some w =>
            obtain ⟨q, ⟨x, rfl⟩, hp⟩ := h _ _ _ hv
            rw [hv] at hr
            simp only at hr
            obtain ⟨q', h1, h2⟩ := ih _ _ hr
            exact ⟨q ++ q', by rw [h1]; simp, .into hd ⟨hs, ht⟩ hp h2⟩
        · rw [if_neg ht] at hr
          simp only [perform] at hr
          obtain ⟨q, h1, h2⟩ := ih _ _ hr
          exact ⟨q, h1, .other hd hs (fun hh => ht hh.2) h2⟩

/-- what a walk of depth `n` gathers below `p`, with `o` directories open -/
def Walk (S : Sys) : Nat → Nat → Str → List Str → Prop
  | 0, _, _, _ => False
  | n + 1, o, p, q => match opendir S o (slashed p ++ [0]) with
    | .error _ => q = []
    | .ok l => Parts (Walk S n (o + 1)) (slashed p) l.entries q

theorem readdir_walk (S : Sys) : ∀ (n : Nat) (p : Str) (o : Nat) (files : List Str) (r : Out (List Str)),
    readdir S false collectBlock n p ⟨files, o⟩ = some r → ∃ q, Adds ⟨files, o⟩ r q ∧ Walk S n o p q := by
  intro n
  induction n with
  | zero => intro p o files r h; cases h
  | succ n ih =>
    intro p o files r h
    rw [readdir] at h
    unfold Walk
    cases ho : opendir S o (slashed p ++ [0]) with
    | error e =>
      simp only [ho, Option.some.injEq] at h
      exact ⟨[], ⟨e, by simp [← h]⟩, rfl⟩
    | ok l =>
      simp only [ho] at h
      cases hl : loop false collectBlock (readdir S false collectBlock n) (slashed p) [] l.entries ⟨files, o + 1⟩ with
      | none => rw [hl] at h; cases h
      | some w =>
        obtain ⟨q, rfl, hq⟩ := loop_parts (Walk S n (o + 1)) (slashed p) _ (o + 1) (fun p f r => ih p (o + 1) f r) _ _ _ hl
        rw [hl] at h
        simp only [Option.map_some, Option.some.injEq, close] at h
        exact ⟨q, ⟨0, by rw [← h]; simp⟩, hq⟩

/-! ### members -/

/-- a path below an entry -/
def Via (P : Str → Str → Prop) (path : Str) (e : Entry) (f : Str) : Prop :=
  ¬ Dot e.name ∧ ((Source (path ++ e.name) ∧ f = path ++ e.name) ∨ (Into e (path ++ e.name) ∧ P (path ++ e.name) f))

theorem Parts.sound {P : Str → List Str → Prop} {F : Str → Str → Prop} {path : Str} (es0 : List Entry)
    (h : ∀ e ∈ es0, ∀ q, P (path ++ e.name) q → ∀ f ∈ q, F (path ++ e.name) f) {es : List Entry} {q : List Str} (hp : Parts P path es q) :
    (∀ e ∈ es, e ∈ es0) → ∀ f ∈ q, ∃ e ∈ es, Via F path e f := by
  induction hp with
  | nil => intro _ f hf; cases hf
  | dot _ _ ih =>
    intro hs f hf
    obtain ⟨e, he, hv⟩ := ih (fun e he => hs e (by simp [he])) f hf
    exact ⟨e, by simp [he], hv⟩
  | source hd hsrc _ ih =>
    intro hs f hf
    rcases List.mem_cons.1 hf with rfl | hf
    · exact ⟨_, by simp, hd, .inl ⟨hsrc, rfl⟩⟩
    · obtain ⟨e, he, hv⟩ := ih (fun e he => hs e (by simp [he])) f hf
      exact ⟨e, by simp [he], hv⟩
  | into hd hi hq _ ih =>
    intro hs f hf
    rcases List.mem_append.1 hf with hf | hf
    · exact ⟨_, by simp, hd, .inr ⟨hi, h _ (hs _ (by simp)) _ hq f hf⟩⟩
    · obtain ⟨e, he, hv⟩ := ih (fun e he => hs e (by simp [he])) f hf
      exact ⟨e, by simp [he], hv⟩
  | other _ _ _ _ ih =>
    intro hs f hf
    obtain ⟨e, he, hv⟩ := ih (fun e he => hs e (by simp [he])) f hf
    exact ⟨e, by simp [he], hv⟩

theorem Parts.complete {P : Str → List Str → Prop} {F : Str → Str → Prop} {path : Str} (es0 : List Entry)
    (h : ∀ e ∈ es0, ∀ q, P (path ++ e.name) q → ∀ f, F (path ++ e.name) f → f ∈ q) {es : List Entry} {q : List Str} (hp : Parts P path es q) :
    (∀ e ∈ es, e ∈ es0) → ∀ e ∈ es, ∀ f, Via F path e f → f ∈ q := by
  induction hp with
  | nil => intro _ e he; cases he
  | dot hdot _ ih =>
    intro hs e he f hv
    rcases List.mem_cons.1 he with rfl | he
    · exact absurd hdot hv.1
    · exact ih (fun e he => hs e (by simp [he])) e he f hv
  | source hd hsrc _ ih =>
    intro hs e he f hv
    rcases List.mem_cons.1 he with rfl | he
    · rcases hv.2 with hv | hv
      · simp [hv.2]
      · exact absurd hsrc hv.1.1
    · exact List.mem_cons_of_mem _ (ih (fun e he => hs e (by simp [he])) e he f hv)
  | into hd hi hq _ ih =>
    intro hs e he f hv
    rcases List.mem_cons.1 he with rfl | he
    · rcases hv.2 with hv | hv
      · exact absurd hv.1 hi.1
      · exact List.mem_append_left _ (h _ (hs _ (by simp)) _ hq f hv.2)
    · exact List.mem_append_right _ (ih (fun e he => hs e (by simp [he])) e he f hv)
  | other hd hns hni _ ih =>
    intro hs e he f hv
    rcases List.mem_cons.1 he with rfl | he
    · rcases hv.2 with hv | hv
      · exact absurd hv.1 hns
      · exact absurd hv.1 hni
    · exact ih (fun e he => hs e (by simp [he])) e he f hv

theorem Found.via {S : Sys} {d f : Str} {l : Listing} (hl : S.ls (S.dir d) = .ok l) :
    Found S d f ↔ ∃ e ∈ l.entries, Via (fun p f => Found S (p ++ [ch '/']) f) d e f := by
  constructor
  · intro h
    cases h with
    | here h1 h2 h3 h4 => rw [hl] at h1; cases h1; exact ⟨_, h2, h3, .inl ⟨h4, rfl⟩⟩
    | deeper h1 h2 h3 h4 h5 => rw [hl] at h1; cases h1; exact ⟨_, h2, h3, .inr ⟨h4, h5⟩⟩
  · rintro ⟨e, he, hd, ⟨h, rfl⟩ | ⟨h, h'⟩⟩
    · exact .here hl he hd h
    · exact .deeper hl he hd h h'

theorem slashed_entry {d name : Str} (hn : ch '/' ∉ name) (h0 : name ≠ []) : slashed (d ++ name) = d ++ name ++ [ch '/'] := by
  unfold slashed
  rw [if_neg]
  intro h
  rw [List.getLast?_append] at h
  cases hl : name.getLast? with
  | none => exact h0 (List.getLast?_eq_none_iff.1 hl)
  | some c =>
    rw [hl] at h
    simp only [Option.some_or, Option.some.injEq] at h
    subst h
    exact hn (List.mem_of_getLast? hl)

theorem opendir_ok (S : Sys) (o : Nat) (p : Str) (h : (0 : Byte) ∉ p) (l : Listing) (ho : opendir S o (p ++ [0]) = .ok l) :
    S.ls (S.dir p) = .ok l := by
  unfold opendir at ho
  rw [cstr_null p h] at ho
  split at ho
  · cases ho
  · cases hs : S.ls (S.dir p) with
    | ok l' => rw [hs] at ho; cases ho; rfl
    | error e => rw [hs] at ho; cases ho

theorem Walk.sound {S : Sys} (hS : Proper S) : ∀ (n o : Nat) (p : Str) (q : List Str), (0 : Byte) ∉ p → Walk S n o p q →
    ∀ f ∈ q, Found S (slashed p) f := by
  intro n
  induction n with
  | zero => intro o p q _ h; cases h
  | succ n ih =>
    intro o p q h0 h f hf
    unfold Walk at h
    cases ho : opendir S o (slashed p ++ [0]) with
    | error e => simp only [ho] at h; subst h; cases hf
    | ok l =>
      simp only [ho] at h
      have hl := opendir_ok _ _ _ (slashed_null _ h0) _ ho
      rw [Found.via hl]
      refine Parts.sound l.entries ?_ h (fun _ h => h) f hf
      intro e he q hq f hf
      obtain ⟨n1, n2, n3⟩ := hS _ _ _ hl he
      have := ih (o + 1) _ q (by rw [List.mem_append, not_or]; exact ⟨slashed_null _ h0, n2⟩) hq f hf
      rwa [slashed_entry n1 n3] at this

theorem Walk.complete {S : Sys} (hS : Proper S) : ∀ (n o : Nat) (p : Str) (q : List Str), o + n ≤ S.max → (0 : Byte) ∉ p → Walk S n o p q →
    ∀ f, Found S (slashed p) f → f ∈ q := by
  intro n
  induction n with
  | zero => intro o p q _ _ h; cases h
  | succ n ih =>
    intro o p q hm h0 h f hf
    unfold Walk at h
    cases ho : opendir S o (slashed p ++ [0]) with
    | error e =>
      exfalso
      have : ∃ l, S.ls (S.dir (slashed p)) = .ok l := by cases hf <;> exact ⟨_, by assumption⟩
      obtain ⟨l, hl⟩ := this
      rw [(opendir_null S o _ (slashed_null _ h0) (by omega) l).2 hl] at ho
      cases ho
    | ok l =>
      simp only [ho] at h
      have hl := opendir_ok _ _ _ (slashed_null _ h0) _ ho
      obtain ⟨e, he, hv⟩ := (Found.via hl).1 hf
      refine Parts.complete (F := fun p f => Found S (p ++ [ch '/']) f) l.entries ?_ h (fun _ h => h) e he f hv
      intro e he q hq f hf
      obtain ⟨n1, n2, n3⟩ := hS _ _ _ hl he
      refine ih (o + 1) _ q (by omega) (by rw [List.mem_append, not_or]; exact ⟨slashed_null _ h0, n2⟩) hq f ?_
      rwa [slashed_entry n1 n3]

/-! ### each once -/

theorem Found.under {S : Sys} {d f : Str} (h : Found S d f) : ∃ r, f = d ++ r := by
  induction h with
  | here => exact ⟨_, rfl⟩
  | deeper _ _ _ _ _ ih => obtain ⟨r, rfl⟩ := ih; exact ⟨_, by rw [List.append_assoc, List.append_assoc]⟩

/-- the entry a path goes through is the one its first name says -/
theorem via_name {S : Sys} {d f : Str} {e : Entry} (hv : Via (fun p f => Found S (p ++ [ch '/']) f) d e f) :
    ∃ r, f = d ++ e.name ++ r ∧ (r = [] ∨ r.head? = some (ch '/')) := by
  rcases hv.2 with ⟨_, rfl⟩ | ⟨_, h⟩
  · exact ⟨[], by simp, .inl rfl⟩
  · obtain ⟨r, rfl⟩ := h.under
    exact ⟨ch '/' :: r, by simp, .inr rfl⟩

theorem same_name {a b r s : Str} (ha : ch '/' ∉ a) (hb : ch '/' ∉ b) (hr : r = [] ∨ r.head? = some (ch '/'))
    (hs : s = [] ∨ s.head? = some (ch '/')) (h : a ++ r = b ++ s) : a = b := by
  induction a generalizing b with
  | nil =>
    cases b with
    | nil => rfl
    | cons c b =>
      exfalso
      rcases hr with rfl | hr
      · cases h
      · rw [List.nil_append, List.cons_append] at h
        rw [h] at hr
        cases hr
        exact hb (by simp)
  | cons x a ih =>
    cases b with
    | nil =>
      exfalso
      rcases hs with rfl | hs
      · cases h
      · rw [List.nil_append, List.cons_append] at h
        rw [← h] at hs
        cases hs
        exact ha (by simp)
    | cons c b =>
      rw [List.cons_append, List.cons_append, List.cons.injEq] at h
      rw [h.1, ih (fun hh => ha (List.mem_cons_of_mem _ hh)) (fun hh => hb (List.mem_cons_of_mem _ hh)) h.2]

theorem Parts.nodup {S : Sys} {P : Str → List Str → Prop} {path : Str} (es0 : List Entry)
    (hn : ∀ e ∈ es0, ch '/' ∉ e.name)
    (hs : ∀ e ∈ es0, ∀ q, P (path ++ e.name) q → ∀ f ∈ q, Found S (path ++ e.name ++ [ch '/']) f)
    (h : ∀ e ∈ es0, ∀ q, P (path ++ e.name) q → q.Nodup) {es : List Entry} {q : List Str} (hp : Parts P path es q) :
    (∀ e ∈ es, e ∈ es0) → (es.map Entry.name).Nodup → q.Nodup := by
  have apart : ∀ {e : Entry} {es : List Entry} {f : Str} {t : List Str}, (∀ x ∈ e :: es, x ∈ es0) → ((e :: es).map Entry.name).Nodup →
      Parts P path es t → Via (fun p f => Found S (p ++ [ch '/']) f) path e f → f ∉ t := by
    intro e es f t hin hnd hp hv hf
    obtain ⟨x, hx, hv'⟩ := Parts.sound (F := fun p f => Found S (p ++ [ch '/']) f) es0 hs hp (fun x hx => hin x (by simp [hx])) f hf
    obtain ⟨r, rfl, hr⟩ := via_name hv
    obtain ⟨r', he, hr'⟩ := via_name hv'
    rw [List.append_assoc, List.append_assoc] at he
    have := same_name (hn e (hin e (by simp))) (hn x (hin x (by simp [hx]))) hr hr' (List.append_cancel_left he)
    rw [List.map_cons, List.nodup_cons] at hnd
    exact hnd.1 (List.mem_map.2 ⟨x, hx, this.symm⟩)
  induction hp with
  | nil => intro _ _; exact List.nodup_nil
  | dot _ _ ih => intro hin hnd; exact ih (fun e he => hin e (by simp [he])) (List.nodup_cons.1 hnd).2
  | other _ _ _ _ ih => intro hin hnd; exact ih (fun e he => hin e (by simp [he])) (List.nodup_cons.1 hnd).2
  | source hd hsrc hp ih =>
    intro hin hnd
    exact List.nodup_cons.2 ⟨apart hin hnd hp ⟨hd, .inl ⟨hsrc, rfl⟩⟩, ih (fun e he => hin e (by simp [he])) (List.nodup_cons.1 hnd).2⟩
  | into hd hi hq hp ih =>
    intro hin hnd
    rw [List.nodup_append]
    refine ⟨h _ (hin _ (by simp)) _ hq, ih (fun e he => hin e (by simp [he])) (List.nodup_cons.1 hnd).2, ?_⟩
    intro a ha b hb hab
    subst hab
    exact apart hin hnd hp ⟨hd, .inr ⟨hi, hs _ (hin _ (by simp)) _ hq a ha⟩⟩ hb

theorem Walk.nodup {S : Sys} (hS : Proper S) (hD : Distinct S) : ∀ (n o : Nat) (p : Str) (q : List Str), (0 : Byte) ∉ p → Walk S n o p q → q.Nodup := by
  intro n
  induction n with
  | zero => intro o p q _ h; cases h
  | succ n ih =>
    intro o p q h0 h
    unfold Walk at h
    cases ho : opendir S o (slashed p ++ [0]) with
    | error e => simp only [ho] at h; subst h; exact List.nodup_nil
    | ok l =>
      simp only [ho] at h
      have hl := opendir_ok _ _ _ (slashed_null _ h0) _ ho
      have h0' : ∀ e ∈ l.entries, (0 : Byte) ∉ slashed p ++ e.name := by
        intro e he; rw [List.mem_append, not_or]; exact ⟨slashed_null _ h0, (hS _ _ _ hl he).2.1⟩
      refine Parts.nodup (S := S) l.entries (fun e he => (hS _ _ _ hl he).1) ?_ ?_ h (fun _ h => h) (hD _ _ hl)
      · intro e he q hq f hf
        have := Walk.sound hS n (o + 1) _ q (h0' e he) hq f hf
        rwa [slashed_entry (hS _ _ _ hl he).1 (hS _ _ _ hl he).2.2] at this
      · intro e he q hq
        exact ih (o + 1) _ q (h0' e he) hq

/-- **The walk finds the source files below a directory, each once**, behind those there were; none that is not below it, and — as
long as so many directories may be open as they nest — all of them. Nothing stays open. -/
theorem collect_finds (S : Sys) (hS : Proper S) (hD : Distinct S) (n : Nat) (d : Str) (files : List Str) (o : Nat) (r : St (List Str))
    (h0 : (0 : Byte) ∉ d) (h : collect S n d ⟨files, o⟩ = some r) :
    r.opened = o ∧ ∃ new, r.user = files ++ new ∧ new.Nodup ∧ (∀ f ∈ new, Found S (slashed d) f) ∧
      (o + n ≤ S.max → ∀ f, Found S (slashed d) f → f ∈ new) := by
  unfold collect at h
  cases hr : readdir S false collectBlock n d ⟨files, o⟩ with
  | none => rw [hr] at h; cases h
  | some w =>
    obtain ⟨q, ⟨e, rfl⟩, hq⟩ := readdir_walk S n d o files w hr
    rw [hr] at h
    simp only [Option.map_some, Option.some.injEq, Out.st] at h
    subst h
    exact ⟨rfl, q, rfl, Walk.nodup hS hD n o d q h0 hq, Walk.sound hS n o d q h0 hq, fun hm => Walk.complete hS n o d q hm h0 hq⟩

/-! ## It ends exactly if no chain of directories goes on for ever -/

theorem perform_some {σ : Type} (rec : St σ → Option (Out σ)) (h : ∀ s, rec s ≠ none) : ∀ (a : Act σ) (n : Nat), perform rec a n ≠ none := by
  intro a
  induction a with
  | done s => intro n h; cases h
  | leave s => intro n h; cases h
  | recurse s k ih =>
    intro n hn
    unfold perform at hn
    cases hv : rec ⟨s, n⟩ with
    | none => exact h _ hv
    | some o =>
      rw [hv] at hn
      cases o with
      | left t => cases hn
      | ret e t => exact ih e t.user t.opened hn

theorem loop_some (path : Str) (visit : Str → St (List Str) → Option (Out (List Str))) : ∀ (es : List Entry) (s : St (List Str)),
    (∀ e ∈ es, ¬ Dot e.name → Into e (path ++ e.name) → ∀ s, visit (path ++ e.name) s ≠ none) →
    loop false collectBlock visit path [] es s ≠ none := by
  intro es
  induction es with
  | nil => intro s _ h; cases h
  | cons e es ih =>
    intro s hv hn
    simp only [loop, Bool.false_eq_true, if_false] at hn
    have ih' := fun s => ih s (fun e he => hv e (by simp [he]))
    by_cases hd : e.name = str "." ∨ e.name = str ".."
    · rw [if_pos hd] at hn; exact ih' _ hn
    · rw [if_neg hd] at hn
      cases hp : perform (visit (path ++ e.name)) (collectBlock e.name e.type (path ++ e.name) s.user) s.opened with
      | none =>
        unfold collectBlock at hp
        by_cases hs : Source (path ++ e.name)
        · rw [if_pos ((endsWith_iff _).2 hs)] at hp; cases hp
        · rw [if_neg (fun hh => hs ((endsWith_iff _).1 hh))] at hp
          by_cases ht : e.type = DT_DIR ∨ e.type = DT_UNKNOWN
          · rw [if_pos ht] at hp
            exact perform_some _ (hv e (by simp) hd ⟨hs, ht⟩) _ _ hp
          · rw [if_neg ht] at hp; cases hp
      | some o =>
        rw [hp] at hn
        cases o with
        | left t => cases hn
        | ret x t => exact ih' _ hn

/-- **The walk ends** when no chain of directories below is longer than the bound, whatever errors there are. -/
theorem collect_ends (S : Sys) (hS : Proper S) : ∀ (n : Nat) (d : Str) (s : St (List Str)), (0 : Byte) ∉ d → Shallow S n (slashed d) →
    ∃ r, collect S n d s = some r := by
  have key : ∀ (n : Nat) (d : Str) (s : St (List Str)), (0 : Byte) ∉ d → Shallow S n (slashed d) → readdir S false collectBlock n d s ≠ none := by
    intro n
    induction n with
    | zero => intro d s _ h; cases h
    | succ n ih =>
      intro d s h0 h hn
      cases h with
      | mk h =>
        rw [readdir] at hn
        cases ho : opendir S s.opened (slashed d ++ [0]) with
        | error e => simp only [ho] at hn; cases hn
        | ok l =>
          simp only [ho] at hn
          have hl := opendir_ok _ _ _ (slashed_null _ h0) _ ho
          have := loop_some (slashed d) (readdir S false collectBlock n) l.entries { s with opened := s.opened + 1 } (by
            intro e he hd hi s'
            obtain ⟨n1, n2, n3⟩ := hS _ _ _ hl he
            refine ih _ _ (by rw [List.mem_append, not_or]; exact ⟨slashed_null _ h0, n2⟩) ?_
            rw [slashed_entry n1 n3]
            exact h l e hl he hd hi)
          cases hk : loop false collectBlock (readdir S false collectBlock n) (slashed d) [] l.entries { s with opened := s.opened + 1 } with
          | none => exact this hk
          | some w => rw [hk] at hn; cases hn
  intro n d s h0 h
  unfold collect
  cases hr : readdir S false collectBlock n d s with
  | none => exact absurd hr (key n d s h0 h)
  | some w => exact ⟨_, rfl⟩

theorem Parts.walked {P : Str → List Str → Prop} {path : Str} {es : List Entry} {q : List Str} (h : Parts P path es q) :
    ∀ e ∈ es, ¬ Dot e.name → Into e (path ++ e.name) → ∃ q, P (path ++ e.name) q := by
  induction h with
  | nil => intro e he; cases he
  | dot hdot _ ih => intro e he hd; rcases List.mem_cons.1 he with rfl | he; exact absurd hdot hd; exact ih e he hd
  | source _ hs _ ih => intro e he hd hi; rcases List.mem_cons.1 he with rfl | he; exact absurd hs hi.1; exact ih e he hd hi
  | into _ _ hq _ ih => intro e he hd hi; rcases List.mem_cons.1 he with rfl | he; exact ⟨_, hq⟩; exact ih e he hd hi
  | other _ _ hn _ ih => intro e he hd hi; rcases List.mem_cons.1 he with rfl | he; exact absurd hi hn; exact ih e he hd hi

/-- and only then, if enough may be open: in a directory with a way back to itself (that is no link) it would go on for ever -/
theorem ends_only (S : Sys) (hS : Proper S) : ∀ (n o : Nat) (d : Str) (files : List Str) (r : St (List Str)), o + n ≤ S.max → (0 : Byte) ∉ d →
    collect S n d ⟨files, o⟩ = some r → Shallow S n (slashed d) := by
  have key : ∀ (n o : Nat) (d : Str) (q : List Str), o + n ≤ S.max → (0 : Byte) ∉ d → Walk S n o d q → Shallow S n (slashed d) := by
    intro n
    induction n with
    | zero => intro o d q _ _ h; cases h
    | succ n ih =>
      intro o d q hm h0 h
      refine .mk ?_
      intro l e hl he hd hi
      unfold Walk at h
      simp only [(opendir_null S o _ (slashed_null _ h0) (by omega) l).2 hl] at h
      obtain ⟨q', hq'⟩ := h.walked e he hd hi
      obtain ⟨n1, n2, n3⟩ := hS _ _ _ hl he
      have := ih (o + 1) _ q' (by omega) (by rw [List.mem_append, not_or]; exact ⟨slashed_null _ h0, n2⟩) hq'
      rwa [slashed_entry n1 n3] at this
  intro n o d files r hm h0 h
  unfold collect at h
  cases hr : readdir S false collectBlock n d ⟨files, o⟩ with
  | none => rw [hr] at h; cases h
  | some w =>
    obtain ⟨q, -, hq⟩ := readdir_walk S n d o files w hr
    exact key n o d q hm h0 hq

/-- **What is watched**: the source files below `src` and `lib`, each once. -/
theorem watched_finds (S : Sys) (hS : Proper S) (hD : Distinct S) (n : Nat) (hm : n ≤ S.max) (fs : List Str) (h : watched S n = some fs) :
    fs.Nodup ∧ ∀ f, f ∈ fs ↔ Found S (str "./src/") f ∨ Found S (str "./lib/") f := by
  unfold watched at h
  cases h1 : collect S n (str "./src") ⟨[], 0⟩ with
  | none => rw [h1] at h; cases h
  | some s1 =>
    rw [h1] at h
    simp only [Option.bind_some] at h
    obtain ⟨e1, q1, u1, n1, s1', c1⟩ := collect_finds S hS hD n _ _ _ _ (by decide) h1
    obtain ⟨user1, opened1⟩ := s1
    simp only at e1 u1
    subst e1; subst u1
    cases h2 : collect S n (str "./lib") ⟨user1, 0⟩ with
    | none => rw [h2] at h; cases h
    | some s2 =>
      rw [h2] at h
      simp only [Option.map_some, Option.some.injEq] at h
      subst h
      obtain ⟨e2, q2, u2, n2, s2', c2⟩ := collect_finds S hS hD n _ _ _ _ (by decide) h2
      rw [u2]
      refine ⟨?_, fun f => ?_⟩
      · rw [List.nodup_append]
        refine ⟨n1, n2, ?_⟩
        rintro a ha b hb rfl
        obtain ⟨x, hx⟩ := (s1' a ha).under
        obtain ⟨y, hy⟩ := (s2' a hb).under
        rw [hx] at hy
        have e1 : slashed (str "./src") = str "./src/" := by decide
        have e2 : slashed (str "./lib") = str "./lib/" := by decide
        rw [e1, e2] at hy
        have := congrArg (List.take 6) hy
        rw [List.take_left' (by decide), List.take_left' (by decide)] at this
        revert this
        decide
      · rw [List.mem_append]
        exact ⟨fun h => h.imp (s1' f) (s2' f), fun h => h.imp (c1 (by omega) f) (c2 (by omega) f)⟩

end Verif.Readdir

import Verif.SpecCache
import Verif.HelpersProps
import Verif.DecstrProps
import Verif.CanonProps
/-! # C96: two calls have the same name only if they mean the same thing -/
namespace Verif.SpecCache
open Verif Verif.Helpers

/-- a type that can be named: it has a name, and no comma in it -/
def Ty.Ok (t : Ty) : Prop := t.canon ≠ [] ∧ ch ',' ∉ t.canon

def OkSlots (l : List Slot) : Prop := ∀ t, some t ∈ l → Ty.Ok t

/-- an argument list without arguments, and one with its only argument missing, are the same thing to the solver: it asks for
`args.len > i && args[i]` (src/solver.fu:7083) -/
def norm : List Slot → List Slot
  | [none] => []
  | l => l

/-! ### the text of a list of slots -/

def text : Slot → Str
  | none => []
  | some t => enc t.tags ++ t.canon

def joinC : List Str → Str
  | [] => []
  | [a] => a
  | a :: b :: rest => a ++ str "," ++ joinC (b :: rest)

def tail' : List Str → Str
  | [] => []
  | a :: rest => str "," ++ a ++ tail' rest

theorem joinC_cons (a : Str) (l : List Str) : joinC (a :: l) = a ++ tail' l := by
  induction l generalizing a with
  | nil => simp [joinC, tail']
  | cons b l ih => rw [joinC, ih]; simp [tail']

theorem slotText_ok {a : Slot} (h : ∀ t, a = some t → Ty.Ok t) : slotText a = .ok (text a) := by
  cases a with
  | none => rfl
  | some t =>
    have := (h t rfl).1
    simp only [slotText, Canon.serializeType, if_neg this, appendVarint_eq, List.nil_append, text]

theorem mangleLoop_eq (l : List Slot) (h : OkSlots l) (i : Nat) (m : Str) (hi : i ≠ 0) :
    mangleLoop l i m = .ok (m ++ tail' (l.map text)) := by
  induction l generalizing i m with
  | nil => simp [mangleLoop, tail']
  | cons a l ih =>
    have h1 : slotText a = .ok (text a) := slotText_ok (fun t e => h t (by rw [e]; exact List.mem_cons_self ..))
    simp only [mangleLoop, h1, Bind.bind, Except.bind]
    rw [ih (fun t ht => h t (List.mem_cons_of_mem _ ht)) (i + 1) _ (by omega)]
    simp [hi, tail']

theorem mangleTypes_eq (l : List Slot) (h : OkSlots l) : mangleTypes l = .ok (joinC (l.map text)) := by
  cases l with
  | nil => rfl
  | cons a l =>
    have h1 : slotText a = .ok (text a) := slotText_ok (fun t e => h t (by rw [e]; exact List.mem_cons_self ..))
    unfold mangleTypes
    simp only [mangleLoop, h1, Bind.bind, Except.bind]
    rw [mangleLoop_eq l (fun t ht => h t (List.mem_cons_of_mem _ ht)) 1 _ (by omega), List.map_cons, joinC_cons]
    simp

theorem mangleTypes_ok {l : List Slot} {m : Str} (h : mangleTypes l = .ok m) : ∀ t, some t ∈ l → t.canon ≠ [] := by
  have gen : ∀ (l : List Slot) i (acc m : Str), mangleLoop l i acc = .ok m → ∀ t, some t ∈ l → t.canon ≠ [] := by
    intro l
    induction l with
    | nil => intro i acc m _ t ht; cases ht
    | cons a l ih =>
      intro i acc m h t ht
      simp only [mangleLoop, Bind.bind, Except.bind] at h
      cases hs : slotText a with
      | error e => rw [hs] at h; cases h
      | ok s =>
        rw [hs] at h
        rcases List.mem_cons.mp ht with e | e
        · rw [← e] at hs
          intro hc
          simp [slotText, Canon.serializeType, hc] at hs
        · exact ih _ _ _ h t e
  exact gen l 0 [] m h

theorem enc_no_comma (q : BitVec 32) : ch ',' ∉ enc q := by
  obtain ⟨hi, c, e, h1, h2⟩ := varint_alphabet q
  rw [e]
  intro h
  have hv : (ch ',').toNat = 44 := by decide
  rcases List.mem_append.mp h with h | h
  · have := h1 _ h; omega
  · rw [List.mem_singleton] at h
    rw [← h] at h2; omega

theorem enc_ne_nil (q : BitVec 32) : enc q ≠ [] := by
  obtain ⟨hi, c, e, _, _⟩ := varint_alphabet q
  rw [e]; simp

theorem enc_append_inj {q q' : BitVec 32} {c c' : Str} (h : enc q ++ c = enc q' ++ c') : q = q' ∧ c = c' := by
  have h1 := varint_roundtrip [] c q
  have h2 := varint_roundtrip [] c' q'
  rw [appendVarint_eq, List.nil_append] at h1 h2
  rw [h, h2] at h1
  injection h1 with h1
  have hq : q' = q := congrArg Prod.fst h1
  subst hq
  exact ⟨rfl, List.append_cancel_left h⟩

theorem text_inj {a b : Slot} (h : text a = text b) : a = b := by
  cases a with
  | none =>
    cases b with
    | none => rfl
    | some t => exact absurd (List.append_eq_nil_iff.mp h.symm).1 (enc_ne_nil _)
  | some t =>
    cases b with
    | none => exact absurd (List.append_eq_nil_iff.mp h).1 (enc_ne_nil _)
    | some u =>
      obtain ⟨h1, h2⟩ := enc_append_inj h
      cases t; cases u; simp_all

theorem text_no_comma {a : Slot} (h : ∀ t, a = some t → Ty.Ok t) : ch ',' ∉ text a := by
  cases a with
  | none => simp [text]
  | some t =>
    simp only [text, List.mem_append, not_or]
    exact ⟨enc_no_comma _, (h t rfl).2⟩

/-- the text before the first separator decides -/
theorem sep_inj {c : Byte} {s t x y : Str} (hs : c ∉ s) (ht : c ∉ t) (h : s ++ c :: x = t ++ c :: y) : s = t ∧ x = y := by
  induction s generalizing t with
  | nil =>
    cases t with
    | nil => simp at h; exact ⟨rfl, h⟩
    | cons b t => simp at h; exact absurd (by rw [← h.1]; exact List.mem_cons_self ..) ht
  | cons a s ih =>
    cases t with
    | nil => simp at h; exact absurd (by rw [h.1]; exact List.mem_cons_self ..) hs
    | cons b t =>
      simp at h
      obtain ⟨h1, h2⟩ := ih (fun m => hs (List.mem_cons_of_mem _ m)) (fun m => ht (List.mem_cons_of_mem _ m)) h.2
      exact ⟨by rw [h.1, h1], h2⟩

theorem joinC_inj_ne {a b : Str} {l m : List Str} (hl : ∀ s ∈ a :: l, ch ',' ∉ s) (hm : ∀ s ∈ b :: m, ch ',' ∉ s)
    (h : joinC (a :: l) = joinC (b :: m)) : a :: l = b :: m := by
  have hsep : str "," = [ch ','] := by decide
  induction l generalizing a b m with
  | nil =>
    cases m with
    | nil => simp [joinC] at h; rw [h]
    | cons c m =>
      exfalso
      apply hl a (List.mem_cons_self ..)
      simp only [joinC] at h
      rw [h, hsep]; simp
  | cons d l ih =>
    cases m with
    | nil =>
      exfalso
      apply hm b (List.mem_cons_self ..)
      simp only [joinC] at h
      rw [← h, hsep]; simp
    | cons c m =>
      simp only [joinC, hsep, List.append_assoc, List.cons_append, List.nil_append] at h
      obtain ⟨h1, h2⟩ := sep_inj (hl a (List.mem_cons_self ..)) (hm b (List.mem_cons_self ..)) h
      have := ih (fun s hs => hl s (List.mem_cons_of_mem _ hs)) (fun s hs => hm s (List.mem_cons_of_mem _ hs)) h2
      rw [h1, this]

theorem text_map_inj {a b : List Slot} (h : a.map text = b.map text) : a = b := by
  induction a generalizing b with
  | nil => cases b with
    | nil => rfl
    | cons _ _ => simp at h
  | cons x a ih =>
    cases b with
    | nil => simp at h
    | cons y b =>
      simp only [List.map_cons, List.cons.injEq] at h
      rw [text_inj h.1, ih h.2]

theorem text_eq_nil {a : Slot} (h : text a = []) : a = none := by
  cases a with
  | none => rfl
  | some t => exact absurd (List.append_eq_nil_iff.mp h).1 (enc_ne_nil _)

theorem joinC_eq_nil {a : Slot} {l : List Slot} (h : joinC ((a :: l).map text) = []) : a :: l = [none] := by
  cases l with
  | nil => simp [joinC] at h; rw [text_eq_nil h]
  | cons b l => simp [joinC] at h; exact absurd h.2.1 (by decide)

/-- **Names of argument lists.** Two lists of nameable types have the same text only if they are the same list (an empty list
and a list of one missing argument counting as the same). -/
theorem mangle_injective {a b : List Slot} (ha : OkSlots a) (hb : OkSlots b) (h : mangleTypes a = mangleTypes b) :
    norm a = norm b := by
  rw [mangleTypes_eq a ha, mangleTypes_eq b hb] at h
  injection h with h
  have hca : ∀ s ∈ a.map text, ch ',' ∉ s := by
    intro s hs
    obtain ⟨x, hx, e⟩ := List.mem_map.mp hs
    rw [← e]
    exact text_no_comma (fun t et => ha t (by rw [← et]; exact hx))
  have hcb : ∀ s ∈ b.map text, ch ',' ∉ s := by
    intro s hs
    obtain ⟨x, hx, e⟩ := List.mem_map.mp hs
    rw [← e]
    exact text_no_comma (fun t et => hb t (by rw [← et]; exact hx))
  cases a with
  | nil =>
    cases b with
    | nil => rfl
    | cons y b => rw [joinC_eq_nil h.symm]; rfl
  | cons x a =>
    cases b with
    | nil => rw [joinC_eq_nil h]; rfl
    | cons y b =>
      simp only [List.map_cons] at h hca hcb
      have := joinC_inj_ne hca hcb h
      rw [text_map_inj (a := x :: a) (b := y :: b) (by simpa using this)]

/-! ### prefixes -/

theorem i64dec_chars (n : BitVec 64) : ∀ b ∈ Decstr.i64dec n, b ≠ ch '#' ∧ b ≠ ch ' ' := by
  intro b hb
  have hdig : ∀ {s : Str}, (∀ x ∈ s, Decstr.isDigit x) → b ∈ s → b ≠ ch '#' ∧ b ≠ ch ' ' := by
    intro s hs hm
    have := hs b hm
    unfold Decstr.isDigit at this
    constructor
    · intro e; rw [e] at this; revert this; decide
    · intro e; rw [e] at this; revert this; decide
  rcases Decstr.i64dec_denotes n with ⟨_, hc, _⟩ | ⟨_, t, e, hc, _⟩
  · exact hdig hc.2.1 hb
  · rw [e] at hb
    rcases List.mem_cons.mp hb with h | h
    · rw [h]; decide
    · exact hdig hc.2.1 h

theorem signExtend_inj {a b : BitVec 32} (h : a.signExtend 64 = b.signExtend 64) : a = b := by
  have := congrArg BitVec.toInt h
  rw [BitVec.toInt_signExtend_of_le (by omega), BitVec.toInt_signExtend_of_le (by omega)] at this
  exact BitVec.eq_of_toInt_eq this

theorem pre_inj {t u : Tmpl} {x y : Str} (h : t.pre ++ x = u.pre ++ y) : t = u ∧ x = y := by
  unfold Tmpl.pre at h
  have e1 : str "#" = [ch '#'] := by decide
  have e2 : str " " = [ch ' '] := by decide
  simp only [e1, e2, List.append_assoc, List.cons_append, List.nil_append] at h
  obtain ⟨h1, h2⟩ := sep_inj (fun m => (i64dec_chars _ _ m).1 rfl) (fun m => (i64dec_chars _ _ m).1 rfl) h
  obtain ⟨h3, h4⟩ := sep_inj (fun m => (i64dec_chars _ _ m).2 rfl) (fun m => (i64dec_chars _ _ m).2 rfl) h2
  have h1 := signExtend_inj (Decstr.i64dec_injective h1)
  have h3 := signExtend_inj (Decstr.i64dec_injective h3)
  cases t; cases u
  simp_all

theorem idxOf_sep {c : Byte} {s x : Str} (hs : c ∉ s) : (s ++ c :: x).idxOf c = s.length := by
  induction s with
  | nil => simp
  | cons a s ih =>
    rw [List.cons_append, List.idxOf_cons, ih (fun m => hs (List.mem_cons_of_mem _ m))]
    have : (a == c) = false := by
      simp only [beq_eq_false_iff_ne]
      intro e; exact hs (by rw [e]; exact List.mem_cons_self ..)
    rw [this]; rfl

/-- the prefix `resetMangle` finds in a name is the template's -/
theorem prefixOf_pre (t : Tmpl) (m : Str) : prefixOf (t.pre ++ m) = t.pre := by
  have e2 : str " " = [ch ' '] := by decide
  have e : t.pre ++ m = (Decstr.i64dec (t.modid.signExtend 64) ++ str "#" ++ Decstr.i64dec (t.globid.signExtend 64)) ++ ch ' ' :: m := by
    unfold Tmpl.pre; rw [e2]; simp
  have hn : ch ' ' ∉ Decstr.i64dec (t.modid.signExtend 64) ++ str "#" ++ Decstr.i64dec (t.globid.signExtend 64) := by
    intro h
    rcases List.mem_append.mp h with h | h
    · rcases List.mem_append.mp h with h | h
      · exact (i64dec_chars _ _ h).2 rfl
      · revert h; decide
    · exact (i64dec_chars _ _ h).2 rfl
  unfold prefixOf
  rw [e, idxOf_sep hn, List.take_append, List.take_of_length_le (by omega)]
  unfold Tmpl.pre
  rw [e2]
  simp

/-- **Names of instances.** Two names are equal only if they name the same template with the same argument types. -/
theorem key_injective {t u : Tmpl} {a b : List Slot} {m n : Str} (ha : OkSlots a) (hb : OkSlots b)
    (hm : mangleTypes a = .ok m) (hn : mangleTypes b = .ok n) (h : t.pre ++ m = u.pre ++ n) : t = u ∧ norm a = norm b := by
  obtain ⟨h1, h2⟩ := pre_inj h
  exact ⟨h1, mangle_injective ha hb (by rw [hm, hn, h2])⟩

/-! ### what a call is looked up under -/

/-- the slots a call site amounts to for a candidate -/
def Site.slots (s : Site) : Except Err (List Slot) := do
  let l ← (List.range (min s.restEnd s.restStart)).mapM s.slot
  .ok (if s.restStart < s.restEnd then l ++ [s.restType] else l)

theorem except_mapM_cons {α β : Type} (f : α → Except Err β) (a : α) (l : List α) :
    (a :: l).mapM f = (match f a with
      | .error e => .error e
      | .ok b => match l.mapM f with
        | .error e => .error e
        | .ok bs => .ok (b :: bs)) := by
  rw [List.mapM_cons]
  cases f a with
  | error e => rfl
  | ok b =>
    simp only [Bind.bind, Except.bind]
    cases l.mapM f <;> rfl

theorem Site.loop_eq (s : Site) (n i : Nat) (acc : Str) (l : List Slot) (h : (List.range' i n).mapM s.slot = .ok l) :
    s.loop n i acc = mangleLoop l i acc := by
  induction n generalizing i acc l with
  | zero =>
    simp only [List.range'_zero] at h
    have : l = [] := by
      have h' : (Except.ok [] : Except Err (List Slot)) = .ok l := h
      injection h' with h'; exact h'.symm
    rw [this]; rfl
  | succ n ih =>
    rw [List.range'_succ, except_mapM_cons] at h
    cases ha : s.slot i with
    | error e => rw [ha] at h; cases h
    | ok a =>
      rw [ha] at h
      cases hb : (List.range' (i + 1) n).mapM s.slot with
      | error e => rw [hb] at h; cases h
      | ok bs =>
        rw [hb] at h
        injection h with h
        rw [← h]
        simp only [Site.loop, mangleLoop, ha, Bind.bind, Except.bind]
        cases slotText a with
        | error e => rfl
        | ok t => exact ih (i + 1) _ bs hb

theorem mangleLoop_append (l : List Slot) (x : Slot) (i : Nat) (acc : Str) :
    mangleLoop (l ++ [x]) i acc = (do
      let m ← mangleLoop l i acc
      let s ← slotText x
      .ok ((if i + l.length ≠ 0 then m ++ str "," else m) ++ s)) := by
  induction l generalizing i acc with
  | nil =>
    simp only [List.nil_append, mangleLoop, Bind.bind, Except.bind, List.length_nil, Nat.add_zero]
  | cons a l ih =>
    simp only [List.cons_append, mangleLoop, Bind.bind, Except.bind]
    cases slotText a with
    | error e => rfl
    | ok s =>
      dsimp only
      rw [ih]
      simp only [Bind.bind, Except.bind, List.length_cons]
      have : i + 1 + l.length = i + (l.length + 1) := by omega
      rw [this]

theorem site_mangle_slots (s : Site) {l : List Slot} (h : s.slots = .ok l) (hr : s.restStart < s.restEnd → s.restType ≠ none) :
    s.mangle = mangleTypes l := by
  unfold Site.slots at h
  simp only [Bind.bind, Except.bind] at h
  cases hm : (List.range (min s.restEnd s.restStart)).mapM s.slot with
  | error e => rw [hm] at h; cases h
  | ok k =>
    rw [hm] at h
    dsimp only at h
    injection h with h
    have hk : k.length = min s.restEnd s.restStart := by
      have gen : ∀ (xs : List Nat) k, xs.mapM s.slot = .ok k → k.length = xs.length := by
        intro xs
        induction xs with
        | nil => intro k h; have h' : (Except.ok [] : Except Err (List Slot)) = .ok k := h; injection h' with h'; rw [← h']; rfl
        | cons a xs ih =>
          intro k h
          rw [except_mapM_cons] at h
          cases ha : s.slot a with
          | error e => rw [ha] at h; cases h
          | ok b =>
            rw [ha] at h
            cases hb : xs.mapM s.slot with
            | error e => rw [hb] at h; cases h
            | ok bs =>
              rw [hb] at h
              injection h with h
              rw [← h, List.length_cons, List.length_cons, ih _ hb]
      rw [gen _ _ hm, List.length_range]
    rw [List.range_eq_range'] at hm
    unfold Site.mangle mangleTypes
    rw [s.loop_eq _ 0 [] k hm]
    by_cases hlt : s.restStart < s.restEnd
    · rw [if_pos hlt] at h
      rw [← h, mangleLoop_append]
      simp only [Bind.bind, Except.bind, if_pos hlt]
      cases mangleLoop k 0 [] with
      | error e => rfl
      | ok m =>
        dsimp only
        cases hrt : s.restType with
        | none => exact absurd hrt (hr hlt)
        | some t =>
          dsimp only [slotText]
          have : 0 + k.length = s.restStart := by rw [hk]; omega
          rw [this]
    · rw [if_neg hlt] at h
      rw [← h]
      simp only [Bind.bind, Except.bind, if_neg hlt]
      cases mangleLoop k 0 [] <;> rfl

/-- the argument the call gives the candidate's parameter `i`: the one at that place, or the one its name is matched to, or none -/
inductive Site.Given (s : Site) (i : Nat) : Slot → Prop where
  | inOrder {t : Ty} : s.reorder = none → s.args[i]? = some t → s.Given i (some t)
  | named {map : List Int} {j : Nat} {t : Ty} : s.reorder = some map → map[i]? = some (j : Int) → s.args[j]? = some t → s.Given i (some t)
  | missing {map : List Int} {j : Int} : s.reorder = some map → map[i]? = some j → j < 0 → s.Given i none

/-- the type parameter `i` sees: what the argument is converted to if it is converted, else the argument's -/
def Site.Sees (s : Site) (i : Nat) (a : Slot) : Prop :=
  (∃ b t, s.Given i b ∧ s.conv[i]? = some (some t) ∧ a = some t) ∨ (s.Given i a ∧ ∀ t, s.conv[i]? ≠ some (some t))

/-- the types the candidate sees: one for each argument up to its rest parameter, and one for all of the rest if there are any -/
def Site.Types (s : Site) (l : List Slot) : Prop :=
  ∃ plain, plain.length = min s.restEnd s.restStart ∧ (∀ i (h : i < plain.length), s.Sees i plain[i]) ∧
    ((s.restEnd ≤ s.restStart ∧ l = plain) ∨ (s.restStart < s.restEnd ∧ ∃ t, s.restType = some t ∧ l = plain ++ [some t]))

theorem Site.slot_sees {s : Site} {i : Nat} {a : Slot} (h : s.Sees i a) : s.slot i = .ok a := by
  have hg : ∀ b, s.Given i b → s.slot i = .ok (match s.conv[i]? with
    | some (some t) => some t
    | _ => b) := by
    intro b hb
    cases hb with
    | inOrder h1 h2 => simp [Site.slot, h1, h2, Bind.bind, Except.bind]; rfl
    | named h1 h2 h3 => simp [Site.slot, h1, h2, h3, Bind.bind, Except.bind, List.getD]; rfl
    | missing h1 h2 h3 =>
      have : ¬ (_ : Int) ≥ 0 := Int.not_le.mpr h3
      simp [Site.slot, h1, h2, this, Bind.bind, Except.bind, List.getD]; rfl
  rcases h with ⟨b, t, hb, hc, e⟩ | ⟨hb, hc⟩
  · rw [hg b hb, hc, e]
  · rw [hg a hb]
    cases h : s.conv[i]? with
    | none => rfl
    | some x =>
      cases x with
      | none => rfl
      | some t => exact absurd h (hc t)

theorem Site.mapM_sees {s : Site} (l : List Slot) (k : Nat) (h : ∀ i (h : i < l.length), s.Sees (k + i) l[i]) :
    (List.range' k l.length).mapM s.slot = .ok l := by
  induction l generalizing k with
  | nil => rfl
  | cons a l ih =>
    rw [List.length_cons, List.range'_succ, except_mapM_cons, show s.slot k = .ok a from Site.slot_sees (h 0 (by simp)),
      ih (k + 1) (fun i hi => by have := h (i + 1) (by simpa using hi); rw [show k + 1 + i = k + (i + 1) by omega]; exact this)]

/-- **What a call is looked up under** is the text of the types the candidate sees: positions reordered, conversions
applied, missing arguments blank, the rest arguments as one array. -/
theorem site_mangle (s : Site) {l : List Slot} (h : s.Types l) : s.mangle = mangleTypes l := by
  obtain ⟨k, hk, hs, hr⟩ := h
  have hm := Site.mapM_sees k 0 (fun i hi => by rw [Nat.zero_add]; exact hs i hi)
  rw [hk, ← List.range_eq_range'] at hm
  apply site_mangle_slots
  · unfold Site.slots
    rw [hm]
    rcases hr with ⟨h1, e⟩ | ⟨h1, t, ht, e⟩
    · rw [e]; simp [Bind.bind, Except.bind, Nat.not_lt.mpr h1]
    · rw [e, ht]; simp [Bind.bind, Except.bind, h1]
  · intro h1
    rcases hr with ⟨h2, _⟩ | ⟨_, t, ht, _⟩
    · omega
    · rw [ht]; simp

/-! ### names made by the compiler have no commas -/

mutual
/-- the plain names in a type have no comma -/
def NoComma : Canon.Ty → Prop
  | .name s => ch ',' ∉ s
  | .arr _ t => NoComma t
  | .gen b ls => ch ',' ∉ b ∧ NoCommaL ls
def NoCommaA : Canon.Args → Prop
  | .one _ t => NoComma t
  | .cons _ t rest => NoComma t ∧ NoCommaA rest
def NoCommaL : Canon.Labels → Prop
  | .last _ a => NoCommaA a
  | .more _ a rest => NoCommaA a ∧ NoCommaL rest
end

theorem encT_no_comma (t : Target.Packed) : ch ',' ∉ Canon.encT t := by
  unfold Canon.encT
  simp only [List.mem_append, not_or]
  exact ⟨enc_no_comma _, enc_no_comma _⟩

mutual
theorem render_no_comma (t : Canon.Ty) (h : NoComma t) : ch ',' ∉ t.render := by
  cases t with
  | name s => simp only [Canon.Ty.render]; exact h
  | arr q t =>
    simp only [NoComma] at h
    simp only [Canon.Ty.render, List.mem_append, not_or]
    exact ⟨⟨by decide, enc_no_comma _, render_no_comma t h⟩, by decide⟩
  | gen b ls =>
    simp only [NoComma] at h
    simp only [Canon.Ty.render, List.mem_append, not_or]
    exact ⟨⟨⟨h.1, by decide⟩, render_no_commaL ls h.2⟩, by decide⟩
theorem render_no_commaA (a : Canon.Args) (h : NoCommaA a) : ch ',' ∉ a.render := by
  cases a with
  | one q t =>
    simp only [NoCommaA] at h
    simp only [Canon.Args.render, List.mem_append, not_or]
    exact ⟨enc_no_comma _, render_no_comma t h⟩
  | cons q t rest =>
    simp only [NoCommaA] at h
    simp only [Canon.Args.render, List.mem_append, not_or]
    exact ⟨⟨⟨enc_no_comma _, render_no_comma t h.1⟩, by decide⟩, render_no_commaA rest h.2⟩
theorem render_no_commaL (ls : Canon.Labels) (h : NoCommaL ls) : ch ',' ∉ ls.render := by
  cases ls with
  | last t a =>
    simp only [NoCommaL] at h
    simp only [Canon.Labels.render, List.mem_append, not_or]
    exact ⟨encT_no_comma _, render_no_commaA a h⟩
  | more t a rest =>
    simp only [NoCommaL] at h
    simp only [Canon.Labels.render, List.mem_append, not_or]
    exact ⟨⟨⟨encT_no_comma _, render_no_commaA a h.1⟩, by decide⟩, render_no_commaL rest h.2⟩
end

/-- **Commas.** Arrays of, and templates applied to, types without a comma in their names have no comma in theirs: every type
the compiler makes can be named. -/
theorem names_have_no_comma (q : BitVec 32) (t : Canon.Ty) (hok : t.Ok) (h : NoComma t) : Ty.Ok ⟨q, t.render⟩ :=
  ⟨Canon.plain_ne t hok, render_no_comma t h⟩

end Verif.SpecCache

import Verif.Cpp
import Verif.PreludeFind
/-!
# Emitted identifiers (C41)
-/
namespace Verif.Cpp
open Verif

/-- Specification: the keywords of C++20 ([lex.key], table 5) and its alternative operator spellings (table 6), written
down independently of the table in the code, in alphabetical order. -/
def cpp20 : List String :=
  ["alignas", "alignof", "and", "and_eq", "asm", "auto", "bitand", "bitor", "bool", "break", "case", "catch", "char",
   "char16_t", "char32_t", "char8_t", "class", "co_await", "co_return", "co_yield", "compl", "concept", "const",
   "const_cast", "consteval", "constexpr", "constinit", "continue", "decltype", "default", "delete", "do", "double",
   "dynamic_cast", "else", "enum", "explicit", "export", "extern", "false", "float", "for", "friend", "goto", "if",
   "inline", "int", "long", "mutable", "namespace", "new", "noexcept", "not", "not_eq", "nullptr", "operator", "or",
   "or_eq", "private", "protected", "public", "register", "reinterpret_cast", "requires", "return", "short", "signed",
   "sizeof", "static", "static_assert", "static_cast", "struct", "switch", "template", "this", "thread_local", "throw",
   "true", "try", "typedef", "typeid", "typename", "union", "unsigned", "using", "virtual", "void", "volatile",
   "wchar_t", "while", "xor", "xor_eq"]

/-- Every word the code treats as reserved. -/
def words : List Str := KEYWORDS.flatten.map str

/-- The spelling `ID` gives to a reserved word. -/
def mangle (w : Str) : Str :=
  match w with
  | a :: b :: r => a :: Ascii.upperB b :: r
  | w => w

theorem KEYWORDS_buckets : ∀ n, (h : n < KEYWORDS.length) → ∀ w ∈ KEYWORDS[n], (str w).length = n := by
  decide +kernel

theorem mem_words_iff (id : Str) (h : id.length < KEYWORDS.length) :
    id ∈ words ↔ id ∈ KEYWORDS[id.length].map str := by
  unfold words
  rw [List.mem_map, List.mem_map]
  constructor
  · rintro ⟨w, hw, rfl⟩
    obtain ⟨b, hb, hwb⟩ := List.mem_flatten.1 hw
    obtain ⟨n, hn, rfl⟩ := List.getElem_of_mem hb
    have := KEYWORDS_buckets n hn w hwb
    refine ⟨w, ?_, rfl⟩
    simp only [this]; exact hwb
  · rintro ⟨w, hw, e⟩
    exact ⟨w, List.mem_flatten.2 ⟨_, List.getElem_mem h, hw⟩, e⟩

theorem words_short : ∀ w ∈ words, 2 ≤ w.length ∧ w.length < KEYWORDS.length := by decide +kernel

/-- What `ID` computes: reserved words get their second letter upper-cased, other identifiers stay. -/
theorem ID_eq (id : Str) : ID id = some (if id ∈ words then mangle id else id) := by
  unfold ID
  by_cases h : id.length < KEYWORDS.length
  · rw [if_pos h, List.getElem?_eq_getElem h]
    simp only [Option.bind_eq_bind, Option.bind_some]
    obtain ⟨r, e, hr⟩ := Prelude.findItem_first (KEYWORDS[id.length].map str) id
    rw [e]
    simp only [Option.bind_some]
    rcases hr with ⟨rfl, hno⟩ | ⟨k, rfl, ho, -⟩
    · rw [if_neg (by decide), if_neg]
      rw [mem_words_iff id h]
      intro hm
      obtain ⟨p, q, hpq⟩ := List.append_of_mem hm
      exact hno p.length ⟨p, q, by rw [hpq]; simp, rfl⟩
    · have hm : id ∈ words := by
        rw [mem_words_iff id h]
        obtain ⟨p, q, hpq, -⟩ := ho
        rw [hpq]; simp
      rw [if_pos (by omega), if_pos hm]
      have := words_short id hm
      match id, this with
      | a :: b :: r, _ => rfl
  · rw [if_neg h, if_neg]
    intro hm
    exact h (words_short id hm).2

theorem mangled_not_words : ∀ w ∈ words, mangle w ∉ words := by decide +kernel
theorem mangle_inj : ∀ v ∈ words, ∀ w ∈ words, mangle v = mangle w → v = w := by decide +kernel
theorem cpp20_words : ∀ k ∈ cpp20, str k ∈ words := by decide +kernel

/-- **C41 (no keywords).** The emitted identifier is never a C++20 keyword, whatever the source identifier; `ID` never
faults. -/
theorem ID_not_keyword (id : Str) : ∃ r, ID id = some r ∧ ∀ k ∈ cpp20, r ≠ str k := by
  refine ⟨_, ID_eq id, ?_⟩
  intro k hk e
  have hw := cpp20_words k hk
  by_cases h : id ∈ words
  · rw [if_pos h] at e
    exact mangled_not_words id h (e ▸ hw)
  · rw [if_neg h] at e
    exact h (e ▸ hw)

/-- **C41 (distinctness), partial.** Two different identifiers get the same spelling only when one of them is a reserved
word and the other is that word with its second letter in upper case; in particular `ID` is injective on identifiers
that do not look like a mangled keyword. -/
theorem ID_distinct_partial (a b : Str) (ha : ∀ w ∈ words, a ≠ mangle w) (hb : ∀ w ∈ words, b ≠ mangle w)
    (h : ID a = ID b) : a = b := by
  rw [ID_eq, ID_eq] at h
  have h := Option.some.inj h
  by_cases h1 : a ∈ words <;> by_cases h2 : b ∈ words
  · rw [if_pos h1, if_pos h2] at h; exact mangle_inj a h1 b h2 h
  · rw [if_pos h1, if_neg h2] at h; exact absurd h.symm (hb a h1)
  · rw [if_neg h1, if_pos h2] at h; exact absurd h (ha b h2)
  · rw [if_neg h1, if_neg h2] at h; exact h

/-- **C41 fails in general**: the distinct identifiers `do` and `dO` get the same C++ spelling. -/
theorem ID_collides : ID (str "do") = ID (str "dO") ∧ str "do" ≠ str "dO" := by
  constructor
  · rw [ID_eq, ID_eq]; decide +kernel
  · decide +kernel

/-- The full extent of the failure: every reserved word collides, and with exactly one other identifier. -/
theorem ID_collision_iff (a b : Str) (hne : a ≠ b) :
    ID a = ID b ↔ (a ∈ words ∧ b = mangle a) ∨ (b ∈ words ∧ a = mangle b) := by
  rw [ID_eq, ID_eq, Option.some.injEq]
  by_cases h1 : a ∈ words <;> by_cases h2 : b ∈ words
  · rw [if_pos h1, if_pos h2]
    constructor
    · intro h; exact absurd (mangle_inj a h1 b h2 h) hne
    · rintro (⟨-, rfl⟩ | ⟨-, rfl⟩)
      · exact absurd h2 (mangled_not_words a h1)
      · exact absurd h1 (mangled_not_words b h2)
  · rw [if_pos h1, if_neg h2]
    exact ⟨fun h => Or.inl ⟨h1, h.symm⟩, fun h => h.elim (fun h => h.2.symm) (fun h => absurd h.1 h2)⟩
  · rw [if_neg h1, if_pos h2]
    exact ⟨fun h => Or.inr ⟨h2, h⟩, fun h => h.elim (fun h => absurd h.1 h1) (fun h => h.2)⟩
  · rw [if_neg h1, if_neg h2]
    exact ⟨fun h => absurd h hne, fun h => h.elim (fun h => absurd h.1 h1) (fun h => absurd h.1 h2)⟩

example : ID (str "while") = some (str "wHile") := by rw [ID_eq]; decide +kernel
example : ∀ w ∈ words, str "index" ≠ mangle w := by decide +kernel

/-! ## Operators -/

/-- The C++ compound assignment operators a fu operator may be emitted as. -/
def assignments : List String := ["=", "+=", "-=", "*=", "/=", "%=", "&=", "|=", "^=", "<<=", ">>="]

/-- Specification-side substring test, decidable. -/
def infixes (s : Str) : List Str := (List.range (s.length + 1)).flatMap fun i => (List.range (s.length + 1)).map fun n => (s.drop i).take n

theorem occurs_mem_infixes (s op : Str) (h : ∃ p q, s = p ++ op ++ q) : op ∈ infixes s := by
  obtain ⟨p, q, rfl⟩ := h
  unfold infixes
  rw [List.mem_flatMap]
  refine ⟨p.length, by simp; omega, List.mem_map.2 ⟨op.length, by simp; omega, ?_⟩⟩
  simp

theorem has_infixes (s op : Str) : ∃ b, Prelude.has s (.many op) = some b ∧ (b = true → op ∈ infixes s) := by
  obtain ⟨b, e, h⟩ := Prelude.has_iff s (.many op)
  exact ⟨b, e, fun hb => occurs_mem_infixes s op (h.1 hb)⟩

theorem assign2_infixes : ∀ op ∈ infixes ASSIGN2, op.length = 2 → op ∈ assignments.map str ∨ op ∈ ["=-", "=*", "=/", "=%", "=&", "=|", "=^"].map str := by
  decide +kernel

theorem assign3_infixes : ∀ op ∈ infixes ASSIGN3, op.length = 3 → op ∈ assignments.map str ∨ op ∈ ["<=>", "=>>"].map str := by
  decide +kernel

theorem assignments_accepted : ∀ op ∈ assignments, hasAssignment (str op) = some true := by decide +kernel

/-- Every C++ assignment operator is recognised; anything else that is recognised is one of nine listed
overlaps of two operators in the lookup strings. -/
theorem hasAssignment_sound (op : Str) (h : hasAssignment op = some true) :
    op ∈ assignments.map str ∨ op ∈ ["=-", "=*", "=/", "=%", "=&", "=|", "=^", "<=>", "=>>"].map str := by
  unfold hasAssignment at h
  by_cases h1 : op = str "="
  · subst h1; left; decide +kernel
  · rw [if_neg h1] at h
    by_cases h2 : op.length = 2
    · rw [if_pos h2] at h
      obtain ⟨b, e, hb⟩ := has_infixes ASSIGN2 op
      rw [e] at h
      cases b with
      | false => simp at h
      | true =>
        rcases assign2_infixes op (hb rfl) h2 with hh | hh
        · exact Or.inl hh
        · right
          have : ∀ x ∈ ["=-", "=*", "=/", "=%", "=&", "=|", "=^"].map str, x ∈ ["=-", "=*", "=/", "=%", "=&", "=|", "=^", "<=>", "=>>"].map str := by
            decide +kernel
          exact this op hh
    · rw [if_neg h2] at h
      by_cases h3 : op.length = 3
      · rw [if_pos h3] at h
        obtain ⟨b, e, hb⟩ := has_infixes ASSIGN3 op
        rw [e] at h
        have hbt : b = true := by simpa using h
        rcases assign3_infixes op (hb hbt) h3 with hh | hh
        · exact Or.inl hh
        · right
          have : ∀ x ∈ ["<=>", "=>>"].map str, x ∈ ["=-", "=*", "=/", "=%", "=&", "=|", "=^", "<=>", "=>>"].map str := by
            decide +kernel
          exact this op hh
      · rw [if_neg h3] at h; simp at h

end Verif.Cpp

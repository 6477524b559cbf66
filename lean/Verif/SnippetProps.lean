import Verif.Snippet
import Verif.DecstrProps
import Verif.PreludeProps
import Verif.BitSetEach
/-!
# The snippet of source in an error message: C108
-/
namespace Verif.Snippet
open Verif

/-! ## Specification -/

/-- In the order of the text. -/
def Sorted (hl : List Tok) : Prop := hl.Pairwise (fun a b => a.line < b.line ∨ a.line = b.line ∧ a.col ≤ b.col)

/-- The tokens that are shown: some of the given ones, no two of them overlap, and one is left out only if a shown one
begins in it. -/
structure Kept (hl kept : List Tok) : Prop where
  sub : kept.Sublist hl
  clear : kept.Pairwise (fun a b => a.line = b.line → a.col + a.chars ≤ b.col)
  why : ∀ t ∈ hl, t ∈ kept ∨ ∃ b ∈ kept, b.line = t.line ∧ t.col ≤ b.col ∧ b.col < t.col + t.chars

/-- A token begins in the text, or right after the end of its line. -/
def Inside (lines : List Str) (t : Tok) : Prop :=
  1 ≤ t.line ∧ 0 ≤ t.chars ∧ ∃ line, lines[(t.line - 1).toNat]? = some line ∧ 1 ≤ t.col ∧ t.col ≤ line.length + 1

/-- The line from `pos` on, each of the tokens between the codes for "bad" and for "plain". -/
def marked (line : Str) (pos : Nat) : List Tok → Str
  | [] => line.drop pos
  | t :: ts =>
    (line.take (t.col - 1).toNat).drop pos ++ BAD ++ (line.drop (t.col - 1).toNat).take t.chars.toNat ++ RESET
      ++ marked line ((t.col - 1).toNat + t.chars.toNat) ts

/-- The number of a line, right-aligned. -/
def Margin (n : Nat) (m : Str) : Prop :=
  ∃ pad d, m = List.replicate pad (ch ' ') ++ d ++ str " | " ∧ Decstr.Denotes d n ∧ 8 ≤ m.length ∧ (pad = 0 ∨ m.length = 8)

/-- Line `i` (from 0) has a token, or is between two that have. -/
def Hit (hl : List Tok) (i : Nat) : Prop := ∃ s ∈ hl, ∃ e ∈ hl, s.line ≤ (i + 1 : Nat) ∧ ((i + 1 : Nat) : Int) ≤ e.line

/-- Line `i` is at most `lead` lines before such a line and at most `tail` after one. -/
def Near (hl : List Tok) (lead tail : Nat) (i : Nat) : Prop :=
  ∃ s ∈ hl, ∃ e ∈ hl, s.line - lead ≤ (i + 1 : Nat) ∧ ((i + 1 : Nat) : Int) ≤ e.line + tail

/-- How line `i` is shown; `p` is how it looks. -/
def Row (lines : List Str) (hl kept : List Tok) (i : Nat) (r p : Str) : Prop :=
  ∃ line, lines[i]? = some line ∧
    ((Hit hl i ∧ ∃ m, Margin (i + 1) m ∧
        r = DIM ++ m ++ RESET ++ marked line 0 (kept.filter (fun t => t.line = (i + 1 : Nat))) ++ str "\n" ∧
        p = m ++ line ++ str "\n") ∨
     (¬ Hit hl i ∧ r = DIM ++ str "      | " ++ line ++ RESET ++ str "\n" ∧ p = str "      | " ++ line ++ str "\n"))

/-- A text with codes, and the text that is seen. -/
inductive Shows : Str → Str → Prop
  | nil : Shows [] []
  | chr {c s p} : c ≠ 27#8 → Shows s p → Shows (c :: s) (c :: p)
  | code {b s p} : (∀ x ∈ b, x ≠ ch 'm') → Shows s p → Shows (27#8 :: ch '[' :: b ++ ch 'm' :: s) p

/-! ## The tokens -/

theorem dedupe_kept (hl : List Tok) (hs : Sorted hl) : ∃ kept, dedupe hl = some kept ∧ Kept hl kept ∧ (hl ≠ [] → kept ≠ []) := by
  induction hl with
  | nil => exact ⟨[], rfl, ⟨.slnil, .nil, by simp⟩, by simp⟩
  | cons a rest ih =>
    obtain ⟨ha, hr⟩ := List.pairwise_cons.1 hs
    obtain ⟨kept, e, hk, hne⟩ := ih hr
    simp only [dedupe, e, Option.bind_eq_bind, Option.bind_some]
    cases kept with
    | nil =>
      have : rest = [] := by
        cases rest with
        | nil => rfl
        | cons x xs => exact absurd rfl (hne (by simp))
      subst this
      exact ⟨[a], rfl, ⟨List.Sublist.refl _, by simp, by simp⟩, by simp⟩
    | cons b r =>
      have hb : b ∈ rest := hk.sub.subset (by simp)
      have hkr := hr.sublist hk.sub
      have hab := ha b hb
      have hcl : ∀ x, (a.line = b.line → a.col + a.chars ≤ b.col) → x ∈ b :: r → a.line = x.line → a.col + a.chars ≤ x.col := by
        intro x h0 hx hl
        rcases List.mem_cons.1 hx with rfl | hx'
        · exact h0 hl
        · have h1 := (List.pairwise_cons.1 hkr).1 x hx'
          have h2 := ha x (hk.sub.subset hx)
          have h3 : a.line = b.line := by omega
          have := h0 h3
          omega
      have good : (a.line = b.line → a.col + a.chars ≤ b.col) → Kept (a :: rest) (a :: b :: r) := fun h0 =>
        ⟨hk.sub.cons_cons a, List.pairwise_cons.2 ⟨fun x hx hl => hcl x h0 hx hl, hk.clear⟩, fun t ht => by
          rcases List.mem_cons.1 ht with rfl | ht
          · exact .inl (by simp)
          · rcases hk.why t ht with h | ⟨y, hy, h⟩
            · exact .inl (List.mem_cons_of_mem _ h)
            · exact .inr ⟨y, List.mem_cons_of_mem _ hy, h⟩⟩
      dsimp only
      by_cases h1 : a.line ≠ b.line
      · rw [if_pos h1, if_pos (by omega)]
        exact ⟨_, rfl, good (fun h => absurd h h1), by simp⟩
      · rw [if_neg h1]
        by_cases h2 : a.col + a.chars > b.col
        · rw [if_pos h2]
          refine ⟨_, rfl, ⟨hk.sub.cons a, hk.clear, fun t ht => ?_⟩, by simp⟩
          rcases List.mem_cons.1 ht with rfl | ht
          · exact .inr ⟨b, by simp, by omega, by omega, by omega⟩
          · exact hk.why t ht
        · rw [if_neg h2]
          exact ⟨_, rfl, good (fun _ => by omega), by simp⟩

theorem hit_kept {hl kept : List Tok} (hk : Kept hl kept) (i : Nat) : Hit hl i ↔ Hit kept i := by
  have rep : ∀ t ∈ hl, ∃ b ∈ kept, b.line = t.line := fun t ht => by
    rcases hk.why t ht with h | ⟨b, hb, h, -⟩
    · exact ⟨t, h, rfl⟩
    · exact ⟨b, hb, h⟩
  constructor
  · rintro ⟨s, hs, e, he, h1, h2⟩
    obtain ⟨s', hs', e1⟩ := rep s hs
    obtain ⟨e', he', e2⟩ := rep e he
    exact ⟨s', hs', e', he', by omega, by omega⟩
  · rintro ⟨s, hs, e, he, h⟩
    exact ⟨s, hk.sub.subset hs, e, hk.sub.subset he, h⟩

theorem near_kept {hl kept : List Tok} (hk : Kept hl kept) (a b i : Nat) : Near hl a b i ↔ Near kept a b i := by
  have rep : ∀ t ∈ hl, ∃ b ∈ kept, b.line = t.line := fun t ht => by
    rcases hk.why t ht with h | ⟨b, hb, h, -⟩
    · exact ⟨t, h, rfl⟩
    · exact ⟨b, hb, h⟩
  constructor
  · rintro ⟨s, hs, e, he, h1, h2⟩
    obtain ⟨s', hs', e1⟩ := rep s hs
    obtain ⟨e', he', e2⟩ := rep e he
    exact ⟨s', hs', e', he', by omega, by omega⟩
  · rintro ⟨s, hs, e, he, h⟩
    exact ⟨s, hk.sub.subset hs, e, hk.sub.subset he, h⟩

/-- The comparator of the sort orders the tokens as they are in the text. -/
theorem C108_sorted (hl : List Tok) : hl.Pairwise (fun a b => before b a = false) ↔ Sorted hl := by
  unfold Sorted
  constructor <;> refine List.Pairwise.imp (fun {a b} h => ?_)
  · unfold before at h
    split at h <;> simp at h <;> omega
  · unfold before
    split <;> simp <;> omega

/-! ## The marks -/

theorem mark_filter (line : Str) (n : Int) (hl : List Tok) : mark line n hl = mark line n (hl.filter (fun t => t.line = n)) := by
  induction hl with
  | nil => rfl
  | cons t ts ih =>
    by_cases h : t.line = n
    · rw [List.filter_cons_of_pos (by simpa using h)]
      simp only [mark, ← ih]
    · rw [List.filter_cons_of_neg (by simpa using h), ← ih]
      simp only [mark, if_neg h]
      cases mark line n ts <;> rfl

theorem mark_total (line : Str) (n : Int) (hl : List Tok) (hc : ∀ t ∈ hl, 0 ≤ t.chars) : ∃ m, mark line n hl = some m := by
  induction hl with
  | nil => exact ⟨line, rfl⟩
  | cons t ts ih =>
    obtain ⟨m, e⟩ := ih (fun t ht => hc t (List.mem_cons_of_mem _ ht))
    have := hc t (by simp)
    simp only [mark, e, Option.bind_eq_bind, Option.bind_some]
    by_cases h : t.line = n
    · rw [if_pos h]
      unfold insertAt
      rw [if_pos (by omega), Option.bind_some, if_pos]
      · exact ⟨_, rfl⟩
      · simp only [List.length_append, List.length_take, List.length_drop]
        omega
    · rw [if_neg h]
      exact ⟨_, rfl⟩

theorem mark_marked (line : Str) (n : Int) (ts : List Tok) (hn : ∀ t ∈ ts, t.line = n ∧ 0 ≤ t.chars ∧ 1 ≤ t.col ∧ t.col ≤ line.length + 1)
    (hc : ts.Pairwise (fun a b => a.line = b.line → a.col + a.chars ≤ b.col)) :
    ∃ m, mark line n ts = some m ∧ line.length ≤ m.length ∧
      ∀ pos : Nat, pos ≤ line.length → (∀ t ∈ ts, (pos : Int) ≤ t.col - 1) → m = line.take pos ++ marked line pos ts := by
  induction ts with
  | nil => exact ⟨line, rfl, Nat.le_refl _, fun pos _ _ => by simp [marked]⟩
  | cons t ts ih =>
    obtain ⟨m, e, hlen, hm⟩ := ih (fun x hx => hn x (List.mem_cons_of_mem _ hx)) (List.pairwise_cons.1 hc).2
    obtain ⟨h1, h2, h3, h4⟩ := hn t (by simp)
    have hcl := (List.pairwise_cons.1 hc).1
    obtain ⟨p, hp⟩ : ∃ p : Nat, t.col - 1 = p := ⟨(t.col - 1).toNat, by omega⟩
    obtain ⟨k, hk⟩ : ∃ k : Nat, t.chars = k := ⟨t.chars.toNat, by omega⟩
    have hpl : p ≤ line.length := by omega
    simp only [mark, e, Option.bind_eq_bind, Option.bind_some, if_pos h1, hp, hk]
    have hc0 : max (min (p : Int) m.length) 0 = p := by omega
    rw [hc0]
    have key : ∃ q X, (min ((p : Int) + k) m.length) = (q : Nat) ∧ p ≤ q ∧ m = line.take q ++ X ∧ q ≤ line.length ∧
        (line.take q).drop p = (line.drop p).take k ∧ X = marked line (p + k) ts := by
      by_cases hq : p + k ≤ line.length
      · refine ⟨p + k, marked line (p + k) ts, by omega, by omega, hm (p + k) hq (fun x hx => ?_), hq, ?_, rfl⟩
        · have := hcl x hx (by rw [h1, (hn x (List.mem_cons_of_mem _ hx)).1])
          omega
        · rw [List.drop_take]; congr 1; omega
      · have hts : ts = [] := by
          cases ts with
          | nil => rfl
          | cons x xs =>
            exfalso
            have hx := hn x (by simp)
            have := hcl x (by simp) (by rw [h1, hx.1])
            omega
        subst hts
        simp only [mark, Option.some.injEq] at e
        subst e
        refine ⟨line.length, [], by omega, hpl, by simp, Nat.le_refl _, ?_, ?_⟩
        · rw [List.take_length, List.take_of_length_le (by rw [List.length_drop]; omega)]
        · simp only [marked]
          rw [List.drop_eq_nil_iff.2 (by omega)]
    obtain ⟨q, X, hq, hpq, hmX, hql, hmid, hX⟩ := key
    rw [hq]
    have hmlen : q ≤ m.length := by rw [hmX]; simp only [List.length_append, List.length_take]; omega
    have i1 : insertAt m q RESET = some (line.take q ++ RESET ++ X) := by
      unfold insertAt
      rw [if_pos (by omega)]
      congr 1
      rw [Int.toNat_natCast, hmX, List.take_append_of_le_length (by rw [List.length_take]; omega), List.take_take, Nat.min_self,
        List.drop_append_of_le_length (by rw [List.length_take]; omega), List.drop_take, Nat.sub_self, List.take_zero, List.nil_append]
    have i2 : insertAt (line.take q ++ RESET ++ X) p BAD
        = some (line.take p ++ BAD ++ ((line.take q).drop p ++ RESET ++ X)) := by
      unfold insertAt
      rw [if_pos (by simp only [List.length_append, List.length_take]; omega)]
      congr 1
      rw [Int.toNat_natCast, List.append_assoc (line.take q), List.take_append_of_le_length (by rw [List.length_take]; omega), List.take_take,
        Nat.min_eq_left hpq, List.drop_append_of_le_length (by rw [List.length_take]; omega)]
      simp only [List.append_assoc]
    rw [i1, Option.bind_some, i2]
    refine ⟨_, rfl, ?_, fun pos hpos hall => ?_⟩
    · simp only [List.length_append]
      have : m.length = (line.take q).length + X.length := by rw [hmX, List.length_append]
      simp only [List.length_take, List.length_drop] at *
      omega
    · have hpp : pos ≤ p := by have := hall t (by simp); omega
      have hsplit : line.take p = line.take pos ++ (line.take p).drop pos := by
        rw [← List.take_append_drop pos (line.take p), List.take_take, Nat.min_eq_left hpp]
        simp [List.length_take, Nat.min_eq_left (Nat.le_trans hpp hpl), List.drop_take]
      simp only [marked, hp, hk, Int.toNat_natCast]
      rw [hmid, hX]
      conv_lhs => rw [hsplit]
      simp only [List.append_assoc]

/-! ## Loops -/

theorem forUp_rows (f : Nat → Str → Option Str) (g : Nat → Str) (lo hi : Nat) (hle : lo ≤ hi) (acc : Str)
    (h : ∀ i, lo ≤ i → i < hi → ∀ acc, f i acc = some (acc ++ g i)) :
    forUp lo hi acc f = some (acc ++ ((List.range' lo (hi - lo)).map g).flatten) := by
  obtain ⟨s, e, hs⟩ := forUp_inv (lo := lo) (hi := hi) (s := acc) (body := f)
    (fun k s => lo ≤ k ∧ s = acc ++ ((List.range' lo (k - lo)).map g).flatten) hle ⟨Nat.le_refl _, by simp⟩
    (fun k s h1 h2 h3 => by
      refine ⟨_, h k h1 h2 s, by omega, ?_⟩
      rw [h3.2, show k + 1 - lo = (k - lo) + 1 from by omega, List.range'_concat, List.map_append, List.flatten_append,
        show lo + 1 * (k - lo) = k from by omega]
      simp only [List.map_cons, List.map_nil, List.flatten_cons, List.flatten_nil, List.append_nil, List.append_assoc])
  rw [e, hs.2]

theorem margin_ok (n : Nat) (hn : n < 2 ^ 63) : Margin n (margin n) := by
  have hd := Decstr.i64dec_denotes (BitVec.ofNat 64 n)
  have : (BitVec.ofNat 64 n).toInt = n := by
    rw [BitVec.toInt_eq_toNat_of_lt] <;> simp only [BitVec.toNat_ofNat] <;> omega
  rw [this] at hd
  refine ⟨8 - (Decstr.i64dec (BitVec.ofNat 64 n) ++ str " | ").length, _, ?_, hd, ?_, ?_⟩
  · simp only [margin, List.append_assoc]
  · simp only [margin, List.length_append, List.length_replicate]; omega
  · simp only [margin, List.length_append, List.length_replicate]; omega

/-! ## What is seen -/

theorem Shows.append {a p b q : Str} (h : Shows a p) (k : Shows b q) : Shows (a ++ b) (p ++ q) := by
  induction h with
  | nil => exact k
  | chr hc _ ih => exact .chr hc ih
  | code hb _ ih =>
    simp only [List.append_assoc, List.cons_append]
    exact .code hb ih

theorem shows_plain (s : Str) (h : ∀ c ∈ s, c ≠ 27#8) : Shows s s := by
  induction s with
  | nil => exact .nil
  | cons c s ih => exact .chr (h c (by simp)) (ih (fun x hx => h x (List.mem_cons_of_mem _ hx)))

theorem shows_RESET : Shows RESET [] := Shows.code (b := str "0") (by decide) .nil
theorem shows_DIM : Shows DIM [] := Shows.code (b := str "2") (by decide) .nil
theorem shows_BAD : Shows BAD [] := Shows.code (b := str "31;1") (by decide) .nil

theorem strip_code (b s : Str) (hb : ∀ x ∈ b, x ≠ ch 'm') (hs : s ≠ []) : strip true (b ++ ch 'm' :: s) = strip false s := by
  induction b with
  | nil =>
    cases s with
    | nil => exact absurd rfl hs
    | cons d r => simp [strip]
  | cons x b ih =>
    have hx := hb x (by simp)
    have := ih (fun y hy => hb y (List.mem_cons_of_mem _ hy))
    cases b with
    | nil => simp only [List.cons_append, List.nil_append] at this ⊢; rw [strip, if_pos rfl, if_neg hx]; exact this
    | cons y b => simp only [List.cons_append] at this ⊢; rw [strip, if_pos rfl, if_neg hx]; exact this

/-- **C108.** `strip` of a text with codes and one more byte is the text that is seen, without that byte. -/
theorem C108_strip_partial {s p : Str} (h : Shows s p) (c : Byte) : strip false (s ++ [c]) = p := by
  induction h with
  | nil => rfl
  | @chr c' s p hc _ ih =>
    cases hs : s ++ [c] with
    | nil => simp at hs
    | cons d r =>
      rw [List.cons_append, hs, strip, if_neg (by simp), if_neg (fun h => hc h.1), ← hs, ih]
  | @code b s p hb _ ih =>
    simp only [List.append_assoc, List.cons_append]
    rw [strip, if_neg (by simp), if_pos ⟨rfl, rfl⟩, strip_code b (s ++ [c]) hb (by simp), ih]

theorem marked_shows (line : Str) (hl : ∀ c ∈ line, c ≠ 27#8) (ts : List Tok) (pos : Nat)
    (hn : ∀ t ∈ ts, (pos : Int) ≤ t.col - 1 ∧ 0 ≤ t.chars) (hc : ts.Pairwise (fun a b => a.col + a.chars ≤ b.col)) :
    Shows (marked line pos ts) (line.drop pos) := by
  induction ts generalizing pos with
  | nil => exact shows_plain _ (fun c h => hl c (List.mem_of_mem_drop h))
  | cons t ts ih =>
    obtain ⟨h1, h2⟩ := hn t (by simp)
    obtain ⟨p, hp⟩ : ∃ p : Nat, t.col - 1 = p := ⟨(t.col - 1).toNat, by omega⟩
    obtain ⟨k, hk⟩ : ∃ k : Nat, t.chars = k := ⟨t.chars.toNat, by omega⟩
    have := ih (p + k) (fun x hx => ⟨by have := (List.pairwise_cons.1 hc).1 x hx; omega, (hn x (List.mem_cons_of_mem _ hx)).2⟩)
      (List.pairwise_cons.1 hc).2
    simp only [marked, hp, hk, Int.toNat_natCast]
    have s1 : Shows ((line.take p).drop pos) ((line.take p).drop pos) :=
      shows_plain _ (fun c h => hl c (List.mem_of_mem_take (List.mem_of_mem_drop h)))
    have s2 : Shows ((line.drop p).take k) ((line.drop p).take k) :=
      shows_plain _ (fun c h => hl c (List.mem_of_mem_drop (List.mem_of_mem_take h)))
    have := (((s1.append shows_BAD).append s2).append shows_RESET).append this
    have e : (line.take p).drop pos ++ [] ++ (line.drop p).take k ++ [] ++ line.drop (p + k) = line.drop pos := by
      rw [List.append_nil, List.append_nil, List.append_assoc, ← List.drop_drop, List.take_append_drop, List.drop_take]
      have := List.take_append_drop (p - pos) (line.drop pos)
      rwa [List.drop_drop, show pos + (p - pos) = p from by omega] at this
    rwa [e] at this

/-! ## The whole -/

/-- How many lines before and after are shown. -/
def leads (f : Fmt) : Nat := if f.noContext || f.noLead then 0 else 2
def tails (f : Fmt) : Nat := if f.noContext || f.noTail then 0 else 2

/-- `src` is these lines. -/
structure Lines (src : Str) (lines : List Str) : Prop where
  ne : lines ≠ []
  free : ∀ l ∈ lines, ch '\n' ∉ l
  glued : Prelude.glue [ch '\n'] lines = src

theorem cut_of_free (lines : List Str) (h0 : lines ≠ []) (h : ∀ l ∈ lines, ch '\n' ∉ l) : Prelude.Cut [ch '\n'] lines := by
  have free : ∀ p : Str, ch '\n' ∉ p → ∀ k, ¬ Prelude.Occurs p [ch '\n'] k := fun p hp k ⟨a, b, e, _⟩ =>
    hp (by rw [e]; simp)
  induction lines with
  | nil => exact absurd rfl h0
  | cons p ps ih =>
    cases ps with
    | nil => exact free p (h p (by simp))
    | cons q ps =>
      refine ⟨fun k hk ⟨a, b, e, ha⟩ => h p (by simp) ?_, ih (by simp) (fun l hl => h l (List.mem_cons_of_mem _ hl))⟩
      have : (p ++ [ch '\n'])[k]? = some (ch '\n') := by
        rw [e, List.append_assoc, List.getElem?_append_right (by omega), ha, Nat.sub_self]; rfl
      rw [List.getElem?_append_left hk] at this
      exact List.mem_of_getElem? this

theorem split_lines {src : Str} {lines : List Str} (h : Lines src lines) : Prelude.split src (.many (str "\n")) = some lines := by
  obtain ⟨ps, e, hg, hc⟩ := Prelude.split_cuts src (.many (str "\n")) (by decide)
  rw [e, Prelude.cut_unique [ch '\n'] (by simp) ps lines hc (cut_of_free lines h.ne h.free) (hg.trans h.glued.symm)]

/-- What `format` does with tokens that are kept. -/
theorem format_eq {src : Str} {lines : List Str} (h : Lines src lines) (f : Fmt) (hl kept : List Tok) (start : Tok) (more : List Tok)
    (e : dedupe hl = some kept) (hk : kept = start :: more) :
    format src f hl =
      (forUp ((max (min (start.line - 1) lines.length) 0).toNat - leads f) (max (min (start.line - 1) lines.length) 0).toNat []
        (contextRow lines)).bind fun r =>
      (forUp (max (min (start.line - 1) lines.length) 0).toNat (max (min (kept.getLast (by simp [hk])).line lines.length) 0).toNat r
        (hitRow lines kept)).bind fun r =>
      forUp (max (min (kept.getLast (by simp [hk])).line lines.length) 0).toNat
        (min lines.length ((max (min (kept.getLast (by simp [hk])).line lines.length) 0).toNat + tails f)) r (contextRow lines) := by
  subst hk
  simp only [format, e, Option.bind_eq_bind, Option.bind_some, split_lines h]
  rfl

theorem sorted_first {start : Tok} {more : List Tok} (hs : Sorted (start :: more)) (t : Tok) (ht : t ∈ start :: more) :
    start.line ≤ t.line := by
  rcases List.mem_cons.1 ht with rfl | ht
  · exact Int.le_refl _
  · have := (List.pairwise_cons.1 hs).1 t ht; omega

theorem sorted_last {l : List Tok} (hs : Sorted l) (h : l ≠ []) (t : Tok) (ht : t ∈ l) : t.line ≤ (l.getLast h).line := by
  induction l with
  | nil => simp at ht
  | cons a l ih =>
    cases l with
    | nil => simp at ht; subst ht; exact Int.le_refl _
    | cons b l =>
      rw [List.getLast_cons (by simp)]
      rcases List.mem_cons.1 ht with rfl | ht
      · have := (List.pairwise_cons.1 hs).1 ((b :: l).getLast (by simp)) (List.getLast_mem _); omega
      · exact ih (List.pairwise_cons.1 hs).2 (by simp) ht

/-- **C108.** Whatever the tokens (in any place, inside the text or not): no line and no place in a line is out of
bounds. -/
theorem C108_never_fails {src : Str} {lines : List Str} (h : Lines src lines) (f : Fmt) (hl : List Tok) (hs : Sorted hl)
    (hc : ∀ t ∈ hl, 0 ≤ t.chars) : ∃ out, format src f hl = some out := by
  obtain ⟨kept, e, hk, -⟩ := dedupe_kept hl hs
  cases hkept : kept with
  | nil => exact ⟨[], by simp only [format, e, hkept, Option.bind_eq_bind, Option.bind_some]⟩
  | cons start more =>
    rw [format_eq h f hl kept start more e hkept]
    have mem2 : ∀ x ∈ kept, x ∈ start :: more := fun x hx => by rw [← hkept]; exact hx
    have hfl := sorted_first (hkept ▸ hs.sublist hk.sub : Sorted (start :: more)) (kept.getLast (by simp [hkept]))
      (mem2 _ (List.getLast_mem _))
    generalize (kept.getLast (by simp [hkept])).line = last at *
    have ctx : ∀ i < lines.length, ∀ acc, ∃ r, contextRow lines i acc = some r := fun i hi acc => by
      simp only [contextRow, List.getElem?_eq_getElem hi, Option.bind_eq_bind, Option.bind_some]; exact ⟨_, rfl⟩
    have hit : ∀ i < lines.length, ∀ acc, ∃ r, hitRow lines kept i acc = some r := fun i hi acc => by
      obtain ⟨m, hm⟩ := mark_total lines[i] (i + 1 : Nat) kept (fun t ht => hc t (hk.sub.subset ht))
      simp only [hitRow, List.getElem?_eq_getElem hi, Option.bind_eq_bind, Option.bind_some, hm]; exact ⟨_, rfl⟩
    have go : ∀ (g : Nat → Str → Option Str) lo hi acc, lo ≤ hi → hi ≤ lines.length → (∀ i < lines.length, ∀ acc, ∃ r, g i acc = some r) →
        ∃ r, forUp lo hi acc g = some r := fun g lo hi acc h1 h2 h3 => by
      obtain ⟨s, e, -⟩ := forUp_inv (lo := lo) (hi := hi) (s := acc) (body := g) (fun _ _ => True) h1 trivial
        (fun k s _ hk _ => by obtain ⟨r, hr⟩ := h3 k (by omega) s; exact ⟨r, hr, trivial⟩)
      exact ⟨s, e⟩
    obtain ⟨r1, e1⟩ := go (contextRow lines) ((max (min (start.line - 1) lines.length) 0).toNat - leads f)
      (max (min (start.line - 1) lines.length) 0).toNat [] (by omega) (by omega) ctx
    obtain ⟨r2, e2⟩ := go (hitRow lines kept) (max (min (start.line - 1) lines.length) 0).toNat (max (min last lines.length) 0).toNat r1
      (by omega) (by omega) hit
    obtain ⟨r3, e3⟩ := go (contextRow lines) (max (min last lines.length) 0).toNat
      (min lines.length ((max (min last lines.length) 0).toNat + tails f)) r2 (by omega) (by omega) ctx
    exact ⟨r3, by rw [e1, Option.bind_some, e2, Option.bind_some, e3]⟩

/-- **C108.** Tokens that begin in the text: the lines shown are those with tokens, those between, and two more on each
side (unless they are not wanted), in order, each once and as it is in the text; each shown token is between its codes
in its line and nothing else is; and to the eye the codes are not there. -/
theorem C108_rows_partial {src : Str} {lines : List Str} (h : Lines src lines) (hlen : lines.length < 2 ^ 63) (f : Fmt)
    (hl : List Tok) (hs : Sorted hl) (hin : ∀ t ∈ hl, Inside lines t) :
    ∃ kept, Kept hl kept ∧ ∃ (shown : List Nat) (rows plains : List Str), format src f hl = some rows.flatten ∧
      shown.Pairwise (· < ·) ∧ (∀ i, i ∈ shown ↔ i < lines.length ∧ Near hl (leads f) (tails f) i) ∧
      rows.length = shown.length ∧ plains.length = shown.length ∧
      (∀ (k i : Nat) (r p : Str), shown[k]? = some i → rows[k]? = some r → plains[k]? = some p → Row lines hl kept i r p) ∧
      ((∀ l ∈ lines, 27#8 ∉ l) → Shows rows.flatten plains.flatten ∧
        strip false rows.flatten = plains.flatten.dropLast) := by
  obtain ⟨kept, e, hk, hne⟩ := dedupe_kept hl hs
  refine ⟨kept, hk, ?_⟩
  cases hkept : kept with
  | nil =>
    have : hl = [] := by
      cases hl with
      | nil => rfl
      | cons a l => exact absurd hkept (hne (by simp))
    subst this
    refine ⟨[], [], [], ?_, .nil, by simp [Near], rfl, rfl, by simp, fun _ => ⟨.nil, rfl⟩⟩
    simp only [format, dedupe, Option.bind_eq_bind, Option.bind_some, List.flatten_nil]
  | cons start more =>
    have hsk : Sorted kept := hs.sublist hk.sub
    have hfirst := sorted_first (hkept ▸ hsk : Sorted (start :: more))
    rw [← hkept] at hfirst
    have hlast := sorted_last hsk (by simp [hkept])
    have hmem := List.getLast_mem (l := kept) (by simp [hkept])
    have hstart : start ∈ kept := by simp [hkept]
    have heq := format_eq h f hl kept start more e hkept
    rw [← hkept]
    generalize kept.getLast (by simp [hkept]) = fin at *
    have hfl := hfirst fin hmem
    have inl : ∀ t ∈ kept, 1 ≤ t.line ∧ t.line ≤ lines.length := fun t ht => by
      obtain ⟨h1, -, l, h2, -⟩ := hin t (hk.sub.subset ht)
      have := (List.getElem?_eq_some_iff.1 h2).1
      omega
    obtain ⟨s, hsn⟩ : ∃ s : Nat, start.line - 1 = s := ⟨(start.line - 1).toNat, by have := inl start hstart; omega⟩
    obtain ⟨t, htn⟩ : ∃ t : Nat, fin.line = t := ⟨fin.line.toNat, by have := inl fin hmem; omega⟩
    have hb1 := inl start hstart
    have hb2 := inl fin hmem
    rw [show (max (min (start.line - 1) (lines.length : Int)) 0).toNat = s from by omega,
      show (max (min fin.line (lines.length : Int)) 0).toNat = t from by omega] at heq
    -- the rows
    let ctxR : Nat → Str := fun i => DIM ++ str "      | " ++ lines.getD i [] ++ RESET ++ str "\n"
    let ctxP : Nat → Str := fun i => str "      | " ++ lines.getD i [] ++ str "\n"
    let hitR : Nat → Str := fun i => DIM ++ margin (i + 1) ++ RESET ++
      marked (lines.getD i []) 0 (kept.filter (fun t => t.line = (i + 1 : Nat))) ++ str "\n"
    let hitP : Nat → Str := fun i => margin (i + 1) ++ lines.getD i [] ++ str "\n"
    let R : Nat → Str := fun i => if s ≤ i ∧ i < t then hitR i else ctxR i
    let P : Nat → Str := fun i => if s ≤ i ∧ i < t then hitP i else ctxP i
    have getD : ∀ i, i < lines.length → lines[i]? = some (lines.getD i []) := fun i hi => by
      rw [List.getD_eq_getElem?_getD, List.getElem?_eq_getElem hi]; rfl
    have tok : ∀ (i : Nat) (x : Tok), x ∈ List.filter (fun t : Tok => decide (t.line = ((i + 1 : Nat) : Int))) kept → x ∈ kept ∧ x.line = (i + 1 : Nat) ∧ 0 ≤ x.chars ∧ 1 ≤ x.col ∧
        x.col ≤ (lines.getD i []).length + 1 := fun i x hx => by
      obtain ⟨hx, hxl⟩ := List.mem_filter.1 hx
      have hxl : x.line = (i + 1 : Nat) := by simpa using hxl
      obtain ⟨h1, h2, l, h3, h4, h5⟩ := hin x (hk.sub.subset hx)
      rw [show (x.line - 1).toNat = i from by omega] at h3
      rw [List.getD_eq_getElem?_getD, h3]
      exact ⟨hx, hxl, h2, h4, h5⟩
    have hctx : ∀ i, i < lines.length → ∀ acc, contextRow lines i acc = some (acc ++ ctxR i) := fun i hi acc => by
      simp only [contextRow, getD i hi, Option.bind_eq_bind, Option.bind_some, ctxR, List.append_assoc]
    have hhit : ∀ i, i < lines.length → ∀ acc, hitRow lines kept i acc = some (acc ++ hitR i) := fun i hi acc => by
      obtain ⟨m, em, -, hm⟩ := mark_marked (lines.getD i []) (i + 1 : Nat) (kept.filter (fun t => t.line = (i + 1 : Nat)))
        (fun x hx => (tok i x hx).2) (hk.clear.sublist List.filter_sublist)
      rw [← mark_filter] at em
      have := hm 0 (Nat.zero_le _) (fun x hx => by have := tok i x hx; omega)
      simp only [hitRow, getD i hi, Option.bind_eq_bind, Option.bind_some, em, hitR, this, List.take_zero, List.nil_append, List.append_assoc]
    have r1 := forUp_rows (contextRow lines) R (s - leads f) s (by omega) [] (fun i h1 h2 acc => by
      rw [hctx i (by omega)]; simp only [R]; rw [if_neg (by omega)])
    rw [r1, Option.bind_some] at heq
    have r2 := forUp_rows (hitRow lines kept) R s t (by omega) ([] ++ ((List.range' (s - leads f) (s - (s - leads f))).map R).flatten)
      (fun i h1 h2 acc => by rw [hhit i (by omega)]; simp only [R]; rw [if_pos (by omega)])
    rw [r2, Option.bind_some] at heq
    have r3 := forUp_rows (contextRow lines) R t (min lines.length (t + tails f)) (by omega)
      ([] ++ ((List.range' (s - leads f) (s - (s - leads f))).map R).flatten ++ ((List.range' s (t - s)).map R).flatten)
      (fun i h1 h2 acc => by rw [hctx i (by omega)]; simp only [R]; rw [if_neg (by omega)])
    rw [r3, List.nil_append, ← List.flatten_append, ← List.map_append, ← List.flatten_append, ← List.map_append] at heq
    have hrange : List.range' (s - leads f) (s - (s - leads f)) ++ List.range' s (t - s) ++ List.range' t (min lines.length (t + tails f) - t)
        = List.range' (s - leads f) (min lines.length (t + tails f) - (s - leads f)) := by
      have a1 := List.range'_append_1 (s := s - leads f) (m := s - (s - leads f)) (n := t - s)
      rw [show s - leads f + (s - (s - leads f)) = s from by omega] at a1
      rw [a1]
      have a2 := List.range'_append_1 (s := s - leads f) (m := s - (s - leads f) + (t - s)) (n := min lines.length (t + tails f) - t)
      rw [show s - leads f + (s - (s - leads f) + (t - s)) = t from by omega] at a2
      rw [a2]
      congr 1
      omega
    rw [hrange] at heq
    have hHit : ∀ i, Hit hl i ↔ s ≤ i ∧ i < t := fun i => by
      rw [hit_kept hk]
      constructor
      · rintro ⟨a, ha, b, hb, h1, h2⟩
        have := hfirst a ha
        have := hlast b hb
        omega
      · rintro ⟨h1, h2⟩
        exact ⟨start, hstart, fin, hmem, by omega, by omega⟩
    have hNear : ∀ i, Near hl (leads f) (tails f) i ↔ s - leads f ≤ i ∧ i < t + tails f := fun i => by
      rw [near_kept hk]
      constructor
      · rintro ⟨a, ha, b, hb, h1, h2⟩
        have := hfirst a ha
        have := hlast b hb
        omega
      · rintro ⟨h1, h2⟩
        exact ⟨start, hstart, fin, hmem, by omega, by omega⟩
    refine ⟨List.range' (s - leads f) (min lines.length (t + tails f) - (s - leads f)), _, (List.range' (s - leads f) (min lines.length (t + tails f) - (s - leads f))).map P,
      heq, List.pairwise_lt_range', fun i => ?_, by simp, by simp, fun k i r p h1 h2 h3 => ?_, fun hesc => ?_⟩
    · rw [List.mem_range'_1, hNear]; omega
    · rw [List.getElem?_map, h1, Option.map_some, Option.some.injEq] at h2 h3
      have hi : i < lines.length := by
        have := List.mem_of_getElem? h1
        rw [List.mem_range'_1] at this
        omega
      subst h2; subst h3
      refine ⟨_, getD i hi, ?_⟩
      simp only [R, P]
      by_cases hh : s ≤ i ∧ i < t
      · rw [if_pos hh, if_pos hh]
        exact .inl ⟨(hHit i).2 hh, margin (i + 1), margin_ok (i + 1) (by omega), rfl, rfl⟩
      · rw [if_neg hh, if_neg hh]
        exact .inr ⟨fun x => hh ((hHit i).1 x), rfl, rfl⟩
    · -- what is seen
      have pl : ∀ i, i < lines.length → Shows (lines.getD i []) (lines.getD i []) ∧ ∀ c ∈ lines.getD i [], c ≠ 27#8 := fun i hi => by
        have hm := List.mem_of_getElem? (getD i hi)
        have : ∀ c ∈ lines.getD i [], c ≠ 27#8 := fun c hc e => hesc _ hm (e ▸ hc)
        exact ⟨shows_plain _ this, this⟩
      have mg : ∀ i, i < lines.length → Shows (margin (i + 1)) (margin (i + 1)) := fun i hi => by
        refine shows_plain _ (fun c hc e => ?_)
        obtain ⟨pad, d, em, hd, -⟩ := margin_ok (i + 1) (by omega)
        rw [em, List.mem_append, List.mem_append] at hc
        subst e
        rcases hc with (hc | hc) | hc
        · exact absurd (List.eq_of_mem_replicate hc) (by decide)
        · rcases hd with ⟨-, hd, -⟩ | ⟨hd, -⟩
          · have := hd.2.1 _ hc
            unfold Decstr.isDigit at this
            exact absurd this (by decide)
          · omega
        · exact absurd hc (by decide)
      have nl : Shows (str "\n") (str "\n") := shows_plain _ (by decide)
      have bar : Shows (str "      | ") (str "      | ") := shows_plain _ (by decide)
      -- all but the final newline
      have one : ∀ i, i < lines.length → ∃ a b, R i = a ++ str "\n" ∧ P i = b ++ str "\n" ∧ Shows a b := fun i hi => by
        simp only [R, P]
        by_cases hh : s ≤ i ∧ i < t
        · rw [if_pos hh, if_pos hh]
          refine ⟨_, _, rfl, rfl, ?_⟩
          have mk := marked_shows (lines.getD i []) (pl i hi).2 (kept.filter (fun t => t.line = (i + 1 : Nat))) 0
            (fun x hx => by have := tok i x hx; omega) (by
              refine List.Pairwise.imp_of_mem (fun {a b} ha hb hab => hab ?_) (hk.clear.sublist List.filter_sublist)
              rw [(tok i a ha).2.1, (tok i b hb).2.1])
          have := ((shows_DIM.append (mg i hi)).append shows_RESET).append mk
          rw [List.drop_zero, List.append_nil, List.nil_append] at this
          exact this
        · rw [if_neg hh, if_neg hh]
          have := ((shows_DIM.append bar).append (pl i hi).1).append shows_RESET
          rw [List.append_nil, List.nil_append] at this
          exact ⟨_, _, rfl, rfl, this⟩
      have many : ∀ l : List Nat, (∀ i ∈ l, i < lines.length) → (l = [] ∨ ∃ a b, (l.map R).flatten = a ++ str "\n" ∧ (l.map P).flatten = b ++ str "\n" ∧ Shows a b) := by
        intro l
        induction l with
        | nil => intro _; exact .inl rfl
        | cons i l ih =>
          intro hl'
          obtain ⟨a, b, e1, e2, h3⟩ := one i (hl' i (by simp))
          right
          rcases ih (fun j hj => hl' j (List.mem_cons_of_mem _ hj)) with rfl | ⟨a', b', e1', e2', h3'⟩
          · exact ⟨a, b, by simp [e1], by simp [e2], h3⟩
          · refine ⟨a ++ str "\n" ++ a', b ++ str "\n" ++ b', ?_, ?_, (h3.append nl).append h3'⟩
            · rw [List.map_cons, List.flatten_cons, e1, e1']; simp only [List.append_assoc]
            · rw [List.map_cons, List.flatten_cons, e2, e2']; simp only [List.append_assoc]
      rcases many (List.range' (s - leads f) (min lines.length (t + tails f) - (s - leads f))) (fun i hi => by
        rw [List.mem_range'_1] at hi; omega) with h0 | ⟨a, b, e1, e2, h3⟩
      · rw [h0]; exact ⟨.nil, rfl⟩
      · rw [e1, e2]
        refine ⟨h3.append nl, ?_⟩
        rw [show str "\n" = [ch '\n'] from rfl, C108_strip_partial h3, List.dropLast_concat]

/-- Two tokens past the end of a line: the code of the one is put into the code of the other. -/
theorem C108_past_end_partial :
    mark (str "ab") 1 [⟨1, 4, 1⟩, ⟨1, 6, 1⟩] =
      some (str "ab" ++ [27#8] ++ BAD ++ str "[" ++ RESET ++ str "31;1m" ++ RESET) := by decide

/-- A longer token in which a shorter one begins is not shown. -/
example : dedupe [⟨1, 1, 9⟩, ⟨1, 3, 1⟩, ⟨2, 1, 1⟩] = some [⟨1, 3, 1⟩, ⟨2, 1, 1⟩] := by decide

/-- A text and tokens for `C108_rows_partial`. -/
example : Lines (str "a\nbcd\n") [str "a", str "bcd", str ""] ∧ Sorted [⟨2, 1, 1⟩, ⟨2, 3, 1⟩] ∧
    (∀ t ∈ [(⟨2, 1, 1⟩ : Tok), ⟨2, 3, 1⟩], Inside [str "a", str "bcd", str ""] t) ∧
    mark (str "bcd") 2 [⟨2, 1, 1⟩, ⟨2, 3, 1⟩] = some (BAD ++ str "b" ++ RESET ++ str "c" ++ BAD ++ str "d" ++ RESET) := by
  refine ⟨⟨by simp, by decide, by decide⟩, by unfold Sorted; decide, ?_, by decide⟩
  intro t ht
  simp only [List.mem_cons, List.not_mem_nil, or_false] at ht
  rcases ht with rfl | rfl
  · exact ⟨by decide, by decide, str "bcd", rfl, by decide, by decide⟩
  · exact ⟨by decide, by decide, str "bcd", rfl, by decide, by decide⟩

end Verif.Snippet

import Verif.Cgen
import Verif.CgenSpec
/-!
# Emitted literals denote the bytes they were made from (C72)
-/
namespace Verif.Cgen
open Verif Verif.Cgen.Spec

/-- What one byte becomes, given the byte that follows it. -/
def one (q c : Byte) (next : Option Byte) : Str :=
  if c = 10#8 then [ch '\\', ch 'n'] else if c = 13#8 then [ch '\\', ch 'r'] else if c = 9#8 then [ch '\\', ch 't']
  else if c = 11#8 then [ch '\\', ch 'v'] else if c = ch '\\' then [ch '\\', ch '\\']
  else if Byte.lt c 32#8 then
    (ch '\\' :: xHH (u32 c)) ++
      (match next with
       | some n => if q = ch '"' ∧ ((Byte.le (ch 'a') n && Byte.le n (ch 'f')) || (Byte.le (ch 'A') n && Byte.le n (ch 'F')) ||
          (Byte.le (ch '0') n && Byte.le n (ch 'F'))) = true then [ch '"', ch '"'] else []
       | none => [])
  else if c = q then [ch '\\', c] else [c]

def all (q : Byte) : Str → Str
  | [] => []
  | c :: t => one q c t.head? ++ all q t

theorem escStep_eq (s : Str) (q : Byte) (i : Nat) (esc : Str) (c : Byte) (h : s[i]? = some c) :
    escStep s q i esc = some (esc ++ one q c s[i + 1]?) := by
  unfold escStep one
  rw [h]
  simp only [Option.bind_eq_bind, Option.bind_some]
  by_cases h1 : c = 10#8
  · rw [if_pos h1, if_pos h1]
  rw [if_neg h1, if_neg h1]
  by_cases h2 : c = 13#8
  · rw [if_pos h2, if_pos h2]
  rw [if_neg h2, if_neg h2]
  by_cases h3 : c = 9#8
  · rw [if_pos h3, if_pos h3]
  rw [if_neg h3, if_neg h3]
  by_cases h4 : c = 11#8
  · rw [if_pos h4, if_pos h4]
  rw [if_neg h4, if_neg h4]
  by_cases h5 : c = ch '\\'
  · rw [if_pos h5, if_pos h5]
  rw [if_neg h5, if_neg h5]
  by_cases h6 : Byte.lt c 32#8 = true
  · rw [if_pos h6, if_pos h6]
    have hi : i < s.length := by
      rcases Nat.lt_or_ge i s.length with h' | h'
      · exact h'
      · rw [List.getElem?_eq_none h'] at h; cases h
    rcases Nat.lt_or_ge (i + 1) s.length with hn | hn
    · rw [List.getElem?_eq_getElem hn]
      by_cases hq : q = ch '"'
      · rw [if_pos ⟨by omega, hq⟩]
        simp only [Option.bind_some, hq, true_and]
        split <;> simp
      · rw [if_neg (fun h => hq h.2)]
        simp [hq]
    · rw [List.getElem?_eq_none hn, if_neg (by omega)]
      simp
  · rw [if_neg h6, if_neg h6]
    by_cases h7 : c = q
    · rw [if_pos h7, if_pos h7]
    · rw [if_neg h7, if_neg h7]

theorem loop_eq (p s : Str) (q : Byte) (esc : Str) :
    forUp p.length (p ++ s).length esc (escStep (p ++ s) q) = some (esc ++ all q s) := by
  induction s generalizing p esc with
  | nil => unfold forUp; simp [all]
  | cons c t ih =>
    unfold forUp
    rw [if_pos (by simp), escStep_eq _ _ _ _ c (by simp)]
    dsimp only
    have := ih (p ++ [c]) (esc ++ one q c (p ++ c :: t)[p.length + 1]?)
    simp only [List.append_assoc, List.singleton_append, List.length_append, List.length_singleton] at this
    rw [List.length_append]
    rw [this]
    have e : (p ++ c :: t)[p.length + 1]? = t.head? := by
      rw [List.getElem?_append_right (by omega)]
      simp [List.head?_eq_getElem?]
    simp [e, all]

theorem escape_eq (s : Str) (q : Byte) : escapeStringLiteral s q = some ([q] ++ all q s ++ [q]) := by
  unfold escapeStringLiteral
  have := loop_eq [] s q [q]
  simp only [List.nil_append, List.length_nil] at this
  rw [this]; rfl

/-! ## Facts about single bytes, by evaluation of all 256 -/

abbrev sep (n : Byte) : Bool := (Byte.le (ch 'a') n && Byte.le n (ch 'f')) || (Byte.le (ch 'A') n && Byte.le n (ch 'F')) ||
          (Byte.le (ch '0') n && Byte.le n (ch 'F'))

theorem sep_hex : ∀ n : Byte, isHex n = true → sep n = true := by decide +kernel

theorem xHH_ok : ∀ c : Byte, isHex (hex ((u32 c >>> 4) &&& 0xf#32)) = true ∧ isHex (hex ((u32 c >>> 0) &&& 0xf#32)) = true ∧
    num 16 [hex ((u32 c >>> 4) &&& 0xf#32), hex ((u32 c >>> 0) &&& 0xf#32)] = c.toNat := by decide +kernel

/-- The first byte of the text for `c` is `c` itself or a backslash. -/
theorem one_head (q c : Byte) (n : Option Byte) : (one q c n).head? = some c ∨ (one q c n).head? = some (ch '\\') := by
  unfold one
  (repeat' split) <;> simp_all

theorem body_plain (q b : Byte) (t : Str) (hq : b ≠ q) (hn : b ≠ 10#8) (hb : b ≠ ch '\\') :
    body q (b :: t) = (body q t).map fun (v, r) => (b :: v, r) := by
  rw [body.eq_def]; dsimp only
  rw [if_neg hq, if_neg hn, if_pos hb]

theorem body_simple (q c e : Byte) (u : Str) (hq : q = ch '"' ∨ q = ch '\'') (hc : simple c = some e) :
    body q (ch '\\' :: c :: u) = (body q u).map fun (v, r) => (e :: v, r) := by
  rw [body.eq_def]; dsimp only
  rw [if_neg (by rcases hq with rfl | rfl <;> decide), if_neg (by decide), if_neg (by simp), if_pos (by simp [hc])]
  simp [hc]

theorem body_hex (q a b : Byte) (u : Str) (hq : q = ch '"' ∨ q = ch '\'') (ha : isHex a = true) (hb : isHex b = true)
    (hv : num 16 [a, b] ≤ 255) (hu : ∀ x, u.head? = some x → isHex x = false) :
    body q (ch '\\' :: ch 'x' :: a :: b :: u) = (body q u).map fun (v, r) => (BitVec.ofNat 8 (num 16 [a, b]) :: v, r) := by
  rw [body.eq_def]; dsimp only
  rw [if_neg (by rcases hq with rfl | rfl <;> decide), if_neg (by decide), if_neg (by simp), if_neg (by decide), if_pos rfl]
  have ht : (a :: b :: u).takeWhile isHex = [a, b] := by
    rw [List.takeWhile_cons, if_pos ha, List.takeWhile_cons, if_pos hb]
    cases u with
    | nil => rfl
    | cons x t => rw [List.takeWhile_cons, if_neg (by simp [hu x rfl])]
  rw [ht, if_neg (by simp; omega)]
  rfl

theorem body_close (q : Byte) (t : Str) : body q (q :: t) = some ([], t) := by
  rw [body.eq_def]; dsimp only; rw [if_pos rfl]

/-- What follows the text of one byte does not begin with a hexadecimal digit unless the next byte is one. -/
theorem all_head (q : Byte) (t r : Str) (hq : isHex q = false) (x : Byte) (h : (all q t ++ q :: r).head? = some x)
    (hx : isHex x = true) : t.head? = some x := by
  cases t with
  | nil => simp [all] at h; subst h; rw [hq] at hx; cases hx
  | cons c t =>
    rw [all] at h
    have hne : one q c t.head? ≠ [] := by
      intro e
      rcases one_head q c t.head? with h1 | h1 <;> rw [e] at h1 <;> cases h1
    obtain ⟨y, ys, hy⟩ := List.exists_cons_of_ne_nil hne
    have h : (one q c t.head?).head? = some x := by rw [hy] at h ⊢; simpa using h
    rcases one_head q c t.head? with h1 | h1
    · rw [h1] at h; simpa using h
    · rw [h1] at h
      have : x = ch '\\' := by simpa using h.symm
      subst this; exact absurd hx (by decide)

/-- Reading inside a string literal: the rest of this literal and the literals adjacent to it. -/
def inside (n : Nat) (t : Str) : Option (Str × Str) :=
  match body (ch '"') t with
  | none => none
  | some (v, r) => if r.head? = some (ch '"') then (strings n r).map fun (w, r) => (v ++ w, r) else some (v, r)

theorem strings_inside (n : Nat) (t : Str) : strings (n + 1) (ch '"' :: t) = inside n t := by
  unfold strings inside; simp only [ne_eq, not_true_eq_false, if_false]; rfl

theorem inside_cons (n : Nat) (t u : Str) (c : Byte) (h : body (ch '"') t = (body (ch '"') u).map fun (v, r) => (c :: v, r)) :
    inside n t = (inside n u).map fun (v, r) => (c :: v, r) := by
  unfold inside
  rw [h]
  cases body (ch '"') u with
  | none => rfl
  | some x =>
    obtain ⟨v, r⟩ := x
    dsimp only [Option.map_some]
    split
    · cases strings n r <;> rfl
    · rfl

theorem inside_all (s rest : Str) (hr : rest.head? ≠ some (ch '"')) (n : Nat) (hn : s.length ≤ n) :
    inside n (all (ch '"') s ++ ch '"' :: rest) = some (s, rest) := by
  induction s generalizing n with
  | nil => unfold inside; rw [all, List.nil_append, body_close]; simp [hr]
  | cons c t ih =>
    have hn : t.length + 1 ≤ n := hn
    have ih' := ih n (by omega)
    rw [all]
    have simp1 : ∀ e, simple e = some c →
        inside n ([ch '\\', e] ++ all (ch '"') t ++ ch '"' :: rest) = some (c :: t, rest) := by
      intro e he
      simp only [List.cons_append, List.nil_append]
      rw [inside_cons n _ _ c (body_simple _ e c _ (.inl rfl) he), ih']; rfl
    unfold one
    by_cases h1 : c = 10#8
    · rw [if_pos h1]; exact simp1 _ (by rw [h1]; decide)
    rw [if_neg h1]
    by_cases h2 : c = 13#8
    · rw [if_pos h2]; exact simp1 _ (by rw [h2]; decide)
    rw [if_neg h2]
    by_cases h3 : c = 9#8
    · rw [if_pos h3]; exact simp1 _ (by rw [h3]; decide)
    rw [if_neg h3]
    by_cases h4 : c = 11#8
    · rw [if_pos h4]; exact simp1 _ (by rw [h4]; decide)
    rw [if_neg h4]
    by_cases h5 : c = ch '\\'
    · rw [if_pos h5]; exact simp1 _ (by rw [h5]; decide)
    rw [if_neg h5]
    by_cases h6 : Byte.lt c 32#8 = true
    · rw [if_pos h6]
      obtain ⟨ha, hb, hv⟩ := xHH_ok c
      have hof : BitVec.ofNat 8 (num 16 [hex ((u32 c >>> 4) &&& 0xf#32), hex ((u32 c >>> 0) &&& 0xf#32)]) = c := by
        rw [hv]; simp
      have hc : c.toNat ≤ 255 := by have := c.isLt; omega
      unfold xHH
      generalize hex ((u32 c >>> 4) &&& 0xf#32) = a at *
      generalize hex ((u32 c >>> 0) &&& 0xf#32) = b at *
      have key : ∀ u : Str, (∀ x, u.head? = some x → isHex x = false) →
          inside n (ch '\\' :: ch 'x' :: a :: b :: u) = (inside n u).map fun (v, r) => (c :: v, r) := by
        intro u hu
        refine inside_cons n _ _ c ?_
        rw [body_hex _ a b u (.inl rfl) ha hb (by omega) hu, hof]
      by_cases hs : ∃ x, t.head? = some x ∧ sep x = true
      · obtain ⟨x, hx, hsx⟩ := hs
        rw [hx]
        dsimp only
        rw [if_pos ⟨rfl, hsx⟩]
        simp only [List.cons_append, List.nil_append]
        rw [key _ (by intro y hy; simp at hy; subst hy; decide)]
        obtain ⟨m, rfl⟩ : ∃ m, n = m + 1 := ⟨n - 1, by omega⟩
        have e : inside (m + 1) (ch '"' :: ch '"' :: (all (ch '"') t ++ ch '"' :: rest)) = some (t, rest) := by
          rw [inside, body_close]
          simp only [List.head?_cons, if_true]
          rw [strings_inside, ih m (by omega)]; rfl
        rw [e]; rfl
      · have e : (match t.head? with
            | some n => if ch '"' = ch '"' ∧ ((Byte.le (ch 'a') n && Byte.le n (ch 'f')) || (Byte.le (ch 'A') n && Byte.le n (ch 'F')) ||
          (Byte.le (ch '0') n && Byte.le n (ch 'F'))) = true then [ch '"', ch '"'] else []
            | none => []) = ([] : Str) := by
          cases hx : t.head? with
          | none => rfl
          | some x =>
            dsimp only
            rw [if_neg]
            intro h; exact hs ⟨x, hx, h.2⟩
        rw [e]
        simp only [List.cons_append, List.nil_append]
        rw [key, ih']
        · rfl
        · intro x hx
          cases hh : isHex x with
          | false => rfl
          | true => exact absurd ⟨x, all_head _ t rest (by decide) x hx hh, sep_hex x hh⟩ hs
    rw [if_neg h6]
    by_cases h7 : c = ch '"'
    · rw [if_pos h7]
      have := simp1 (ch '"') (by rw [h7]; decide)
      rw [h7] at this ⊢
      exact this
    · rw [if_neg h7]
      simp only [List.cons_append, List.nil_append]
      rw [inside_cons n _ _ c (body_plain _ c _ h7 h1 h5), ih']; rfl

/-- **C72, strings.** Whatever the bytes of a string - control characters, quotes, backslashes, NULs, any byte above 127, hex
digits after an escaped byte - and whatever follows the literal (other than a further literal), a C++ compiler reads the
emitted literal as exactly those bytes, and as many of them. -/
theorem string_literal (s rest : Str) (hr : rest.head? ≠ some (ch '"')) :
    ∃ text, escapeStringLiteral s (ch '"') = some text ∧ readString (text ++ rest) = some (s, rest) := by
  refine ⟨_, escape_eq s (ch '"'), ?_⟩
  unfold readString
  simp only [List.cons_append, List.nil_append, List.append_assoc]
  rw [strings_inside]
  refine inside_all s rest hr _ ?_
  have : ∀ (q : Byte) (s : Str), s.length ≤ (all q s).length := by
    intro q s
    induction s with
    | nil => simp [all]
    | cons c t ih =>
      rw [all, List.length_append, List.length_cons]
      have : 1 ≤ (one q c t.head?).length := by
        rcases one_head q c t.head? with h | h
        all_goals
          cases e : one q c t.head? with
          | nil => rw [e] at h; cases h
          | cons => simp
      omega
  have := this (ch '"') s
  simp; omega

/-- **C72, characters.** The literal emitted for a `char` token is the `char` with that byte. -/
theorem char_literal (c : Byte) (rest : Str) :
    ∃ text, cgCharLiteral [c] = some text ∧ readChar (text ++ rest) = some (c, rest) := by
  refine ⟨_, escape_eq [c] (ch '\''), ?_⟩
  simp only [List.cons_append, List.nil_append, readChar, if_true, all, List.head?_nil]
  have fin : ∀ t, body (ch '\'') t = some ([c], rest) → (match body (ch '\'') t with | some ([c], r) => some (c, r) | _ => none) = some (c, rest) := by
    intro t h; rw [h]
  apply fin
  have simp1 : ∀ e, simple e = some c → body (ch '\'') (([ch '\\', e] ++ [] ++ [ch '\'']) ++ rest) = some ([c], rest) := by
    intro e he
    simp only [List.cons_append, List.nil_append, List.append_nil]
    rw [body_simple _ e c _ (.inr rfl) he, body_close]; rfl
  unfold one
  by_cases h1 : c = 10#8
  · rw [if_pos h1]; exact simp1 _ (by rw [h1]; decide)
  rw [if_neg h1]
  by_cases h2 : c = 13#8
  · rw [if_pos h2]; exact simp1 _ (by rw [h2]; decide)
  rw [if_neg h2]
  by_cases h3 : c = 9#8
  · rw [if_pos h3]; exact simp1 _ (by rw [h3]; decide)
  rw [if_neg h3]
  by_cases h4 : c = 11#8
  · rw [if_pos h4]; exact simp1 _ (by rw [h4]; decide)
  rw [if_neg h4]
  by_cases h5 : c = ch '\\'
  · rw [if_pos h5]; exact simp1 _ (by rw [h5]; decide)
  rw [if_neg h5]
  by_cases h6 : Byte.lt c 32#8 = true
  · rw [if_pos h6]
    obtain ⟨ha, hb, hv⟩ := xHH_ok c
    have hc : c.toNat ≤ 255 := by have := c.isLt; omega
    unfold xHH
    simp only [List.cons_append, List.nil_append, List.append_nil]
    rw [body_hex _ _ _ _ (.inr rfl) ha hb (by omega) (by intro x hx; simp at hx; subst hx; decide), body_close, hv]
    simp
  rw [if_neg h6]
  by_cases h7 : c = ch '\''
  · rw [if_pos h7]
    have := simp1 (ch '\'') (by rw [h7]; decide)
    rw [h7] at this ⊢
    exact this
  · rw [if_neg h7]
    simp only [List.cons_append, List.nil_append, List.append_nil]
    rw [body_plain _ c _ h7 h1 h5, body_close]; rfl

theorem hex_ascii : ∀ b : Byte, isHex b = true → 32 ≤ b.toNat ∧ b.toNat ≤ 127 := by decide +kernel
theorem xHH_ascii (c b : Byte) (hb : b ∈ xHH (u32 c)) : 32 ≤ b.toNat ∧ b.toNat ≤ 127 := by
  obtain ⟨h1, h2, _⟩ := xHH_ok c
  unfold xHH at hb
  simp only [List.mem_cons, List.not_mem_nil, or_false] at hb
  rcases hb with rfl | rfl | rfl
  · decide
  · exact hex_ascii _ h1
  · exact hex_ascii _ h2
theorem not_low : ∀ c : Byte, Byte.lt c 32#8 = false → 32 ≤ c.toNat ∧ c.toNat ≤ 127 := by decide +kernel
theorem esc_ascii : ∀ b ∈ [ch '\\', ch 'n', ch 'r', ch 't', ch 'v', ch '"'], 32 ≤ b.toNat ∧ b.toNat ≤ 127 := by decide

/-- **C72, text.** An emitted literal is a single line of ASCII: no control character (other than DEL) and no byte above 127
gets into the C++ source through a literal. -/
theorem literal_ascii (s : Str) (q : Byte) (hq : q = ch '"' ∨ q = ch '\'') :
    ∃ text, escapeStringLiteral s q = some text ∧ ∀ b ∈ text, 32 ≤ b.toNat ∧ b.toNat ≤ 127 := by
  refine ⟨_, escape_eq s q, ?_⟩
  have hqq : 32 ≤ q.toNat ∧ q.toNat ≤ 127 := by rcases hq with rfl | rfl <;> decide
  have one_ok : ∀ c n b, b ∈ one q c n → 32 ≤ b.toNat ∧ b.toNat ≤ 127 := by
    intro c n b hb
    have hx := xHH_ascii
    have hl := not_low
    have k1 := esc_ascii
    have two : ∀ x y : Byte, x ∈ [ch '\\', ch 'n', ch 'r', ch 't', ch 'v', ch '"'] → y ∈ [ch '\\', ch 'n', ch 'r', ch 't', ch 'v', ch '"'] →
        b ∈ [x, y] → 32 ≤ b.toNat ∧ b.toNat ≤ 127 := by
      intro x y hx hy h
      simp only [List.mem_cons, List.not_mem_nil, or_false] at h
      rcases h with rfl | rfl
      · exact k1 _ hx
      · exact k1 _ hy
    unfold one at hb
    by_cases h1 : c = 10#8
    · rw [if_pos h1] at hb; exact two _ _ (by simp) (by simp) hb
    rw [if_neg h1] at hb
    by_cases h2 : c = 13#8
    · rw [if_pos h2] at hb; exact two _ _ (by simp) (by simp) hb
    rw [if_neg h2] at hb
    by_cases h3 : c = 9#8
    · rw [if_pos h3] at hb; exact two _ _ (by simp) (by simp) hb
    rw [if_neg h3] at hb
    by_cases h4 : c = 11#8
    · rw [if_pos h4] at hb; exact two _ _ (by simp) (by simp) hb
    rw [if_neg h4] at hb
    by_cases h5 : c = ch '\\'
    · rw [if_pos h5] at hb; exact two _ _ (by simp) (by simp) hb
    rw [if_neg h5] at hb
    by_cases h6 : Byte.lt c 32#8 = true
    · rw [if_pos h6] at hb
      rcases List.mem_append.1 hb with hb | hb
      · rcases List.mem_cons.1 hb with rfl | hb
        · exact k1 _ (by simp)
        · exact hx _ _ hb
      · cases n with
        | none => cases hb
        | some n =>
          dsimp only at hb
          split at hb
          · exact two _ _ (by simp) (by simp) hb
          · cases hb
    · rw [if_neg h6] at hb
      have hc := hl c (by simpa using h6)
      by_cases h7 : c = q
      · rw [if_pos h7] at hb
        rcases List.mem_cons.1 hb with rfl | hb
        · exact k1 _ (by simp)
        · rw [List.mem_singleton.1 hb]; exact hc
      · rw [if_neg h7] at hb
        rw [List.mem_singleton.1 hb]; exact hc
  have hall : ∀ s, ∀ b ∈ all q s, 32 ≤ b.toNat ∧ b.toNat ≤ 127 := by
    intro s
    induction s with
    | nil => simp [all]
    | cons c t ih =>
      intro b hb
      rw [all, List.mem_append] at hb
      rcases hb with hb | hb
      · exact one_ok _ _ _ hb
      · exact ih b hb
  intro b hb
  simp only [List.mem_append, List.mem_singleton] at hb
  rcases hb with (rfl | hb) | rfl
  · exact hqq
  · exact hall s b hb
  · exact hqq

/-- The specification on literals whose meaning is known: greedy hex escapes, octal escapes, concatenation, an ill-formed
escape, an unterminated literal. -/
example : readString (str "\"a\\x41\"\"B\\101\\0z\"_fu") = some (str "aABA" ++ [0#8] ++ str "z", str "_fu") ∧
    readString (str "\"\\x41B\"") = none ∧ readString (str "\"a") = none ∧ readChar (str "'ab'") = none := by decide +kernel

/-- A hard case: ESC followed by `B`, a byte above 127 followed by a digit, a NUL, a quote and a backslash. -/
example : cgStringLiteral ([27#8] ++ str "B" ++ [0xc3#8] ++ str "9" ++ [0#8] ++ str "\"\\") false =
    some (str "\"\\x1B\"\"B\\xC3\"\"9\\x00\\\"\\\\\"_fu") := by decide +kernel

end Verif.Cgen

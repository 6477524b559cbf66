import Verif.LexerLemmas
import Mathlib.Tactic.Tauto
/-!
# String and character literals
-/
namespace Verif.Lexer
open Verif

/-- The text between the quotes as the scan sees it: plain bytes, and backslashes with whatever follows. -/
inductive Raw (q : Byte) : Str → Prop
  | nil : Raw q []
  | plain {b t} : b ≠ q → b ≠ ch '\\' → (b = newline → q = ch '`') → Raw q t → Raw q (b :: t)
  | esc {c t} : Raw q t → Raw q (ch '\\' :: c :: t)

/-! ### The scan -/

theorem backScan_ok (src : Str) (i0 : Nat) (q : Byte) (h : src[i0]? = some q) (hq : Byte.le q (ch ' ') = false) (idx : Nat)
    (hi : i0 < idx) (hl : idx ≤ src.length) : ∃ j, backScan src idx = .ok j := by
  induction idx with
  | zero => omega
  | succ idx ih =>
    unfold backScan rd
    have hlt : idx < src.length := by omega
    rw [List.getElem?_eq_getElem hlt]
    simp only [bind, Except.bind]
    split_ifs with hc
    · by_cases he : i0 = idx
      · subst he
        rw [List.getElem?_eq_getElem hlt] at h
        simp at h; rw [h, hq] at hc; simp at hc
      · exact ih (by omega) (by omega)
    · exact ⟨_, rfl⟩

theorem strLoop_cases (src : Str) (q : Byte) (i0 : Nat) (hq0 : src[i0]? = some q) (hq : Byte.le q (ch ' ') = false)
    (s : Str) (idx line : Nat) (lidx : Int) (esc : Bool) (hi : i0 < idx) (h : src.drop idx = s) :
    strLoop src q idx line lidx esc = .error .fail ∨ (∃ r, strLoop src q idx line lidx esc = .ok r ∧ r.ok = false) ∨
    ∃ raw rest r, s = raw ++ q :: rest ∧ Raw q raw ∧ strLoop src q idx line lidx esc = .ok r ∧ r.ok = true ∧
      r.idx = idx + raw.length + 1 ∧ r.esc = (esc || raw.contains (ch '\\')) := by
  induction hn : s.length using Nat.strongRecOn generalizing s idx line lidx esc with
  | _ n ih =>
    subst hn
    conv => lhs; rw [strLoop]
    conv => rhs; rw [strLoop]
    cases s with
    | nil => rw [if_neg (drop_nil h)]; right; left; exact ⟨_, rfl, rfl⟩
    | cons c t =>
      have ht := (drop_cons h).2.2
      rw [if_pos (drop_cons h).1, rd_cons h]
      simp only [bind, Except.bind]
      by_cases hcq : c = q
      · rw [if_pos hcq]; right; right
        exact ⟨[], t, _, by rw [hcq]; rfl, .nil, rfl, rfl, rfl, by simp⟩
      rw [if_neg hcq]
      by_cases hcb : c = ch '\\'
      · rw [if_pos hcb]
        cases t with
        | nil =>
          have h2 : ¬ idx + 2 < src.length := by have := drop_nil ht; omega
          rw [strLoop, if_neg h2]; right; left; exact ⟨_, rfl, rfl⟩
        | cons d u =>
          rcases ih u.length (by simp; omega) u (idx + 2) line lidx true (by omega) (drop_cons ht).2.2 rfl with e | ⟨r, e, e'⟩ |
            ⟨raw, rest, r, e1, e2, e3, e4, e5, e6⟩
          · left; exact e
          · right; left; exact ⟨r, e, e'⟩
          · right; right
            refine ⟨c :: d :: raw, rest, r, by rw [e1]; rfl, by rw [hcb]; exact .esc e2, e3, e4, by rw [e5]; simp; omega, ?_⟩
            rw [e6, hcb]; simp
      rw [if_neg hcb]
      have hrec : ∀ line lidx, (c = newline → q = ch '`') →
          strLoop src q (idx + 1) line lidx esc = .error .fail ∨ (∃ r, strLoop src q (idx + 1) line lidx esc = .ok r ∧ r.ok = false) ∨
          ∃ raw rest r, c :: t = raw ++ q :: rest ∧ Raw q raw ∧ strLoop src q (idx + 1) line lidx esc = .ok r ∧ r.ok = true ∧
            r.idx = idx + raw.length + 1 ∧ r.esc = (esc || raw.contains (ch '\\')) := by
        intro line lidx hnl
        rcases ih t.length (by simp) t (idx + 1) line lidx esc (by omega) ht rfl with e | ⟨r, e, e'⟩ |
            ⟨raw, rest, r, e1, e2, e3, e4, e5, e6⟩
        · left; exact e
        · right; left; exact ⟨r, e, e'⟩
        · right; right
          refine ⟨c :: raw, rest, r, by rw [e1]; rfl, .plain hcq hcb hnl e2, e3, e4, by rw [e5]; simp; omega, ?_⟩
          have : (ch '\\' == c) = false := by simpa using fun h => hcb h.symm
          rw [e6, List.contains_cons, this]; simp
      by_cases hcn : c = 0x0a#8
      · rw [if_pos hcn]
        by_cases hbt : q ≠ ch '`'
        · rw [if_pos hbt]
          obtain ⟨j, hj⟩ := backScan_ok src i0 q hq0 hq (idx + 1) (by omega) (by have := (drop_cons h).1; omega)
          rw [hj]; left; rfl
        · rw [if_neg hbt]
          exact hrec _ _ (fun _ => by simpa using hbt)
      · rw [if_neg hcn]
        exact hrec _ _ (fun e => absurd e hcn)

theorem escVal_ne (q c : Byte) (h : (escVal q c).isSome) (hq : q ≠ newline) : c ≠ newline := by
  rintro rfl
  unfold escVal at h
  rw [if_neg (by decide), if_neg (by decide), if_neg (by decide), if_neg (by decide), if_neg (by decide), if_neg (by decide),
    if_neg (by decide), if_neg (by decide), if_neg (by decide), if_neg (by decide), if_neg (fun e => hq e.symm)] at h
  simp at h

theorem hexDigit_plain (b : Byte) (h : hexDigit b = true) :
    b ≠ ch '\'' ∧ b ≠ ch '"' ∧ b ≠ ch '`' ∧ b ≠ ch '\\' ∧ b ≠ newline ∧ b ≠ ch '}' := by
  have := byte_all (fun b => !hexDigit b || (b != ch '\'' && b != ch '"' && b != ch '`' && b != ch '\\' && b != newline && b != ch '}'))
    (by decide +kernel) b
  simp [h] at this; tauto

/-- One plain byte of the scan. -/
theorem strLoop_plain (src : Str) (q b : Byte) (t : Str) (idx : Nat) (s : Nat × Int) (esc : Bool) (h : src.drop idx = b :: t)
    (h1 : b ≠ q) (h2 : b ≠ ch '\\') (h3 : b = newline → q = ch '`') :
    strLoop src q idx s.1 s.2 esc = strLoop src q (idx + 1) (adv [b] idx s).1 (adv [b] idx s).2 esc := by
  conv => lhs; rw [strLoop]
  rw [if_pos (drop_cons h).1, rd_cons h]
  simp only [bind, Except.bind]
  rw [if_neg h1, if_neg h2]
  simp only [adv]
  by_cases hn : b = 0x0a#8
  · rw [if_pos hn, if_neg (by simpa using h3 hn), if_pos (show b = newline from hn)]
  · rw [if_neg hn, if_neg (show ¬ b = newline from hn)]

/-- A run of plain bytes. -/
theorem strLoop_run (src : Str) (q : Byte) (a t : Str) (idx : Nat) (s : Nat × Int) (esc : Bool) (h : src.drop idx = a ++ t)
    (ha : ∀ b ∈ a, b ≠ q ∧ b ≠ ch '\\' ∧ b ≠ newline) :
    strLoop src q idx s.1 s.2 esc = strLoop src q (idx + a.length) s.1 s.2 esc := by
  induction a generalizing idx with
  | nil => rfl
  | cons b a ih =>
    obtain ⟨h1, h2, h3⟩ := ha b (by simp)
    have h' : src.drop idx = b :: (a ++ t) := by simpa using h
    rw [strLoop_plain src q b _ idx s esc h' h1 h2 (fun e => absurd e h3)]
    rw [adv_none [b] (by simpa using fun e => h3 e.symm)]
    rw [ih (idx + 1) (drop_cons h').2.2 (fun b hb => ha b (by simp [hb]))]
    simp only [List.length_cons]; congr 1; omega

theorem strLoop_esc (src : Str) (q c : Byte) (t : Str) (idx : Nat) (s : Nat × Int) (esc : Bool) (h : src.drop idx = ch '\\' :: c :: t)
    (hq : q ≠ ch '\\') : strLoop src q idx s.1 s.2 esc = strLoop src q (idx + 2) s.1 s.2 true := by
  conv => lhs; rw [strLoop]
  rw [if_pos (drop_cons h).1, rd_cons h]
  simp only [bind, Except.bind]
  rw [if_neg (fun e => hq e.symm), if_pos trivial]

def Quote (q : Byte) : Prop := q = ch '\'' ∨ q = ch '"' ∨ q = ch '`'

theorem quote_facts {q : Byte} (h : Quote q) : q ≠ ch '\\' ∧ q ≠ newline ∧ Byte.le q (ch ' ') = false ∧ q ≠ ch '{' ∧ q ≠ ch '}' ∧
    q ≠ ch 'x' ∧ q ≠ ch 'u' ∧ hexDigit q = false := by
  rcases h with rfl | rfl | rfl <;> decide

theorem item_ne_nil (i : Item) : i.text ≠ [] := by cases i <;> simp [Item.text]

theorem strLoop_item (src : Str) (q : Byte) (hq : Quote q) (i : Item) (hi : i.Valid q) (t : Str) (idx : Nat) (s : Nat × Int) (esc : Bool)
    (h : src.drop idx = i.text ++ t) :
    strLoop src q idx s.1 s.2 esc =
      strLoop src q (idx + i.text.length) (adv i.text idx s).1 (adv i.text idx s).2 (esc || i.text.contains (ch '\\')) := by
  obtain ⟨q1, q2, -, q4, q5, q6, q7, q8⟩ := quote_facts hq
  cases i with
  | plain b =>
    obtain ⟨h1, h2, h3⟩ := hi
    rw [strLoop_plain src q b t idx s esc (by simpa [Item.text] using h) h1 h2 h3]
    have : decide (ch '\\' = b) = false := by simpa using fun h => h2 h.symm
    simp [Item.text, this]
  | esc c =>
    rw [strLoop_esc src q c t idx s esc (by simpa [Item.text] using h) q1]
    rw [adv_none _ (by simp only [Item.text, List.mem_cons, List.not_mem_nil, or_false, not_or]; exact ⟨by decide, fun e => escVal_ne q c hi q2 e.symm⟩)]
    simp [Item.text]
  | hex h' l =>
    have hh := hexDigit_plain h' hi.1
    have hl := hexDigit_plain l hi.2
    have hx : src.drop idx = ch '\\' :: ch 'x' :: ([h', l] ++ t) := by simpa [Item.text] using h
    rw [strLoop_esc src q _ _ idx s esc hx q1]
    have h2 := (drop_cons (drop_cons hx).2.2).2.2
    rw [strLoop_run src q [h', l] t (idx + 2) s true h2 ?_]
    · rw [adv_none _ ?_]
      · simp [Item.text]
      · simp only [Item.text, List.mem_cons, List.not_mem_nil, or_false, not_or]
        exact ⟨by decide, by decide, fun e => hh.2.2.2.2.1 e.symm, fun e => hl.2.2.2.2.1 e.symm⟩
    · intro b hb
      have hbh : hexDigit b = true := by
        simp at hb; rcases hb with rfl | rfl
        · exact hi.1
        · exact hi.2
      have hb' := hexDigit_plain b hbh
      refine ⟨?_, hb'.2.2.2.1, hb'.2.2.2.2.1⟩
      rintro rfl; rw [q8] at hbh; simp at hbh
  | uni ds =>
    obtain ⟨-, -, hd, -⟩ := hi
    have hx : src.drop idx = ch '\\' :: ch 'u' :: ((ch '{' :: (ds ++ [ch '}'])) ++ t) := by simpa [Item.text] using h
    rw [strLoop_esc src q _ _ idx s esc hx q1]
    have h2 := (drop_cons (drop_cons hx).2.2).2.2
    have key : ∀ b ∈ ch '{' :: (ds ++ [ch '}']), b ≠ q ∧ b ≠ ch '\\' ∧ b ≠ newline := by
      intro b hb
      simp only [List.mem_cons, List.mem_append, List.not_mem_nil, or_false] at hb
      rcases hb with rfl | hb | rfl
      · exact ⟨q4.symm, by decide, by decide⟩
      · have hb' := hexDigit_plain b (hd b hb)
        refine ⟨?_, hb'.2.2.2.1, hb'.2.2.2.2.1⟩
        rintro rfl; have := hd b hb; rw [q8] at this; simp at this
      · exact ⟨q5.symm, by decide, by decide⟩
    rw [strLoop_run src q _ t (idx + 2) s true h2 key]
    rw [adv_none _ ?_]
    · simp [Item.text]; congr 1; omega
    · simp only [Item.text]
      intro hm
      rw [List.mem_cons, List.mem_cons] at hm
      rcases hm with hm | hm | hm
      · exact absurd hm (by decide)
      · exact absurd hm (by decide)
      · exact (key _ hm).2.2 rfl

theorem strLoop_items (src : Str) (q : Byte) (hq : Quote q) (items : List Item) (hi : ∀ i ∈ items, i.Valid q) (rest : Str)
    (idx : Nat) (s : Nat × Int) (esc : Bool) (h : src.drop idx = items.flatMap Item.text ++ q :: rest) :
    strLoop src q idx s.1 s.2 esc =
      .ok ⟨idx + (items.flatMap Item.text).length + 1, (adv (items.flatMap Item.text) idx s).1, (adv (items.flatMap Item.text) idx s).2,
        esc || (items.flatMap Item.text).contains (ch '\\'), true⟩ := by
  induction items generalizing idx s esc with
  | nil =>
    have h' : src.drop idx = q :: rest := by simpa using h
    rw [strLoop, if_pos (drop_cons h').1, rd_cons h']
    simp [bind, Except.bind, adv]
  | cons i items ih =>
    have h' : src.drop idx = i.text ++ (items.flatMap Item.text ++ q :: rest) := by simpa using h
    rw [strLoop_item src q hq i (hi i (by simp)) _ idx s esc h']
    rw [ih (fun j hj => hi j (by simp [hj])) _ _ _ (drop_add h')]
    simp only [List.flatMap_cons, adv_append, List.length_append]
    congr 2
    · omega
    · simp [Bool.or_assoc]

/-! ### The value -/

theorem parseHex_eq (src : Str) (i : Nat) (d : Byte) (t : Str) (h : src.drop (i + 1) = d :: t) :
    parseHex src i = if hexDigit d then .ok (hexVal d) else .error .fail := by
  unfold parseHex
  rw [rd_cons h]
  simp only [bind, Except.bind]
  have := byte_all (fun c => decide ((if rng (ch '0') (ch '9') c then (Except.ok (c.toNat - (ch '0').toNat) : M Nat)
    else if rng (ch 'A') (ch 'F') c then .ok (c.toNat - (ch 'A').toNat + 10)
    else if rng (ch 'a') (ch 'f') c then .ok (c.toNat - (ch 'a').toNat + 10)
    else .error .fail) = if hexDigit c then .ok (hexVal c) else .error .fail)) (by decide +kernel) d
  simpa using this

theorem hexVal_lt (d : Byte) (h : hexDigit d = true) : hexVal d < 16 := by
  have := byte_all (fun d => !hexDigit d || decide (hexVal d < 16)) (by decide +kernel) d
  simpa [h] using this

theorem shl4_or (v h : Nat) (hh : h < 16) : v <<< 4 ||| h = 16 * v + h := by
  rw [Nat.shiftLeft_eq, Nat.mul_comm, show 2 ^ 4 = 16 from rfl]
  have := Nat.two_pow_add_eq_or_of_lt (i := 4) (b := h) hh v
  rw [show 2 ^ 4 = 16 from rfl] at this
  exact this.symm

theorem uLoop_eq (src : Str) (n : Nat) (ds t : List Byte) (i digits cp : Nat) (h : src.drop (i + 1) = ds ++ ch '}' :: t)
    (hd : ∀ d ∈ ds, hexDigit d = true) (hn : i + ds.length + 1 < n) (h6 : digits + ds.length ≤ 6) :
    uLoop src n i digits cp = .ok (i + ds.length + 1, digits + ds.length, ds.foldl (fun v d => 16 * v + hexVal d) cp) := by
  induction ds generalizing i digits cp with
  | nil =>
    have h' : src.drop (i + 1) = ch '}' :: t := by simpa using h
    rw [uLoop, if_pos (by simp at hn; omega), rd_cons h']
    simp [bind, Except.bind]
  | cons d ds ih =>
    have h' : src.drop (i + 1) = d :: (ds ++ ch '}' :: t) := by simpa using h
    have hh := hd d (by simp)
    simp only [List.length_cons] at hn h6
    rw [uLoop, if_pos (by omega), rd_cons h']
    simp only [bind, Except.bind]
    rw [if_neg (hexDigit_plain d hh).2.2.2.2.2, if_neg (by omega), parseHex_eq src i d _ h', hh]
    simp only [if_true]
    rw [ih (i + 1) _ _ (drop_cons h').2.2 (fun d hd' => hd d (by simp [hd'])) (by omega) (by omega)]
    rw [shl4_or _ _ (hexVal_lt d hh)]
    simp only [List.foldl_cons, List.length_cons]
    congr 2
    · omega
    · congr 1; omega

/-- What `uLoop` does with any text that lies before `n`. -/
theorem uLoop_cases (src : Str) (n : Nat) (s : Str) (i digits cp : Nat) (h : src.drop (i + 1) = s) (hn : n ≤ src.length) (h6 : digits ≤ 6) :
    uLoop src n i digits cp = .error .fail ∨ ∃ ds t, s = ds ++ ch '}' :: t ∧ (∀ d ∈ ds, hexDigit d = true) ∧
      i + ds.length + 1 < n ∧ digits + ds.length ≤ 6 := by
  induction s generalizing i digits cp with
  | nil => left; rw [uLoop, if_neg]; have := drop_nil h; omega
  | cons d s ih =>
    by_cases hlt : i + 1 < n
    · by_cases hb : d = ch '}'
      · right; subst hb; exact ⟨[], s, rfl, by simp, by simpa using hlt, by simpa using h6⟩
      · rw [uLoop, if_pos hlt, rd_cons h]
        simp only [bind, Except.bind]
        rw [if_neg hb]
        by_cases hdg : digits = 6
        · rw [if_pos hdg]; left; rfl
        · rw [if_neg hdg, parseHex_eq src i d s h]
          by_cases hh : hexDigit d = true
          · rw [if_pos hh]
            rcases ih (i + 1) (digits + 1) (cp <<< 4 ||| hexVal d) (drop_cons h).2.2 (by omega) with e | ⟨ds, t, e1, e2, e3, e4⟩
            · left; exact e
            · right
              refine ⟨d :: ds, t, by rw [e1]; rfl, ?_, by simp; omega, by simp; omega⟩
              intro x hx; simp at hx; rcases hx with rfl | hx
              · exact hh
              · exact e2 x hx
          · rw [if_neg hh]; left; rfl
    · left; rw [uLoop, if_neg hlt]

theorem rfc_ne_nil (c : Nat) : Unicode.rfc c ≠ [] := by
  have := Unicode.rfc_length_pos c
  intro e; rw [e] at this; simp at this

theorem simpleEsc_eq (q c : Byte) : simpleEsc q c = escVal q c := rfl

theorem escape_simple (src : Str) (n i : Nat) (q c : Byte) (t : Str) (h : src.drop (i + 1) = c :: t) (v : Byte)
    (hv : escVal q c = some v) : escape src n i q = .ok ([v], i + 1) := by
  unfold escape
  rw [rd_cons h]
  simp only [bind, Except.bind, simpleEsc_eq, hv]

/-- Other escapes: the branches after the table. -/
theorem escape_other (src : Str) (n i : Nat) (q c : Byte) (t : Str) (h : src.drop (i + 1) = c :: t)
    (hv : escVal q c = none) : escape src n i q =
      if c = ch 'x' then
        if i + 1 ≥ n - 2 then .error .fail
        else do
          let h ← parseHex src (i + 1)
          let l ← parseHex src (i + 1 + 1)
          .ok ([BitVec.ofNat 8 (h <<< 4 ||| l)], i + 1 + 2)
      else if c = ch 'u' then
        if i + 1 = n then .error .fail
        else do
          let b ← rd src (i + 1 + 1)
          if b ≠ ch '{' then .error .fail
          else do
            let (j, digits, cp) ← uLoop src n (i + 1 + 1) 0 0
            if digits = 0 then .error .fail
            else if Unicode.utf8 cp = [] then .error .fail
            else .ok (Unicode.utf8 cp, j)
      else .error .fail := by
  unfold escape
  rw [rd_cons h]
  simp only [bind, Except.bind, simpleEsc_eq, hv]

theorem escVal_x (q : Byte) (hq : Quote q) : escVal q (ch 'x') = none ∧ escVal q (ch 'u') = none := by
  rcases hq with rfl | rfl | rfl <;> decide

/-- Every valid escape is decoded. -/
theorem escape_item (src : Str) (q : Byte) (hq : Quote q) (i : Nat) (it : Item) (hv : it.Valid q) (t : Str)
    (h : src.drop i = it.text ++ t) (hp : ∀ b, it ≠ .plain b) (n : Nat) (hn : i + it.text.length ≤ n) :
    escape src n i q = .ok (it.value q, i + it.text.length - 1) := by
  cases it with
  | plain b => exact absurd rfl (hp b)
  | esc c =>
    have h' : src.drop i = ch '\\' :: c :: t := by simpa [Item.text] using h
    obtain ⟨v, hv'⟩ := Option.isSome_iff_exists.mp hv
    rw [escape_simple src n i q c t (drop_cons h').2.2 v hv']
    simp [Item.value, Item.text, hv']
  | hex a b =>
    have h' : src.drop i = ch '\\' :: ch 'x' :: a :: b :: t := by simpa [Item.text] using h
    have h1 := (drop_cons h').2.2
    have h2 := (drop_cons h1).2.2
    have h3 := (drop_cons h2).2.2
    simp only [Item.text, List.length_cons, List.length_nil] at hn
    rw [escape_other src n i q _ _ h1 (escVal_x q hq).1, if_pos rfl, if_neg (by omega)]
    rw [parseHex_eq src (i + 1) a _ h2, hv.1, parseHex_eq src (i + 1 + 1) b _ h3, hv.2]
    simp only [bind, Except.bind, if_true]
    rw [shl4_or _ _ (hexVal_lt b hv.2)]
    simp [Item.value, Item.text]
  | uni ds =>
    obtain ⟨v1, v2, v3, v4⟩ := hv
    have h' : src.drop i = ch '\\' :: ch 'u' :: ch '{' :: (ds ++ ch '}' :: t) := by simpa [Item.text] using h
    have h1 := (drop_cons h').2.2
    have h2 := (drop_cons h1).2.2
    have h3 := (drop_cons h2).2.2
    simp only [Item.text, List.length_cons, List.length_append, List.length_nil] at hn
    rw [escape_other src n i q _ _ h1 (escVal_x q hq).2, if_neg (by decide), if_pos rfl, if_neg (by omega)]
    rw [rd_cons h2]
    simp only [bind, Except.bind]
    rw [if_neg (by simp), uLoop_eq src n ds t (i + 1 + 1) 0 0 h3 v3 (by omega) (by omega)]
    dsimp only
    rw [if_neg (by omega)]
    have hu : Unicode.utf8 (ds.foldl (fun v d => 16 * v + hexVal d) 0) = (Unicode.rfc (hexNum ds)).map Unicode.byteOf :=
      Unicode.C20_encode_rfc (hexNum ds) v4
    rw [hu, if_neg (by simpa using rfc_ne_nil _)]
    simp [Item.value, Item.text]; omega

theorem text_not_bs (q b : Byte) (h : (Item.plain b).Valid q) : b ≠ ch '\\' := h.2.1

theorem unescape_items (src : Str) (q : Byte) (hq : Quote q) (items : List Item) (hi : ∀ i ∈ items, i.Valid q) (rest : Str)
    (i : Nat) (out : Str) (h : src.drop i = items.flatMap Item.text ++ q :: rest) :
    unescape src (i + (items.flatMap Item.text).length) q i out = .ok (out ++ items.flatMap (Item.value q)) := by
  induction items generalizing i out with
  | nil => rw [unescape]; simp
  | cons it items ih =>
    have h' : src.drop i = it.text ++ (items.flatMap Item.text ++ q :: rest) := by simpa using h
    have hpos : 0 < it.text.length := List.length_pos_iff.mpr (item_ne_nil it)
    have hlen : i + ((it :: items).flatMap Item.text).length = i + it.text.length + (items.flatMap Item.text).length := by
      simp; omega
    rw [hlen]
    have ih' := ih (fun j hj => hi j (by simp [hj])) (i + it.text.length) (out ++ it.value q) (drop_add h')
    rw [unescape, if_pos (by omega)]
    by_cases hp : ∃ b, it = .plain b
    · obtain ⟨b, rfl⟩ := hp
      have h'' : src.drop i = b :: (items.flatMap Item.text ++ q :: rest) := by simpa [Item.text] using h'
      rw [rd_cons h'']
      simp only [bind, Except.bind]
      rw [if_neg (text_not_bs q b (hi _ (by simp)))]
      simp only [Item.text, List.length_cons, List.length_nil, Item.value] at ih' ⊢
      rw [ih']
      simp [Item.value]
    · have h0 : ∃ u, src.drop i = ch '\\' :: u := by
        cases it with
        | plain b => exact absurd ⟨b, rfl⟩ hp
        | esc c => exact ⟨_, h'⟩
        | hex a b => exact ⟨_, h'⟩
        | uni ds => exact ⟨_, h'⟩
      obtain ⟨u, h0⟩ := h0
      rw [rd_cons h0]
      simp only [bind, Except.bind]
      rw [if_pos trivial, escape_item src q hq i it (hi it (by simp)) _ h' (fun b e => hp ⟨b, e⟩) _ (by omega)]
      dsimp only
      rw [if_pos (by omega), show i + it.text.length - 1 + 1 = i + it.text.length by omega, ih']
      simp

/-! ### Every literal is rejected or grammatical -/

theorem raw_plain {q b : Byte} {t : Str} (h : Raw q (b :: t)) (hb : b ≠ ch '\\') : Raw q t := by
  cases h with
  | plain _ _ _ h => exact h
  | esc _ => exact absurd rfl hb

theorem raw_drop {q : Byte} (a t : Str) (h : Raw q (a ++ t)) (ha : ∀ b ∈ a, b ≠ ch '\\') : Raw q t := by
  induction a with
  | nil => exact h
  | cons b a ih => exact ih (raw_plain h (ha b (by simp))) (fun b hb => ha b (by simp [hb]))

theorem raw_no_bs {q : Byte} (raw : Str) (h : Raw q raw) (hb : ch '\\' ∉ raw) :
    (∀ i ∈ raw.map Item.plain, i.Valid q) ∧ (raw.map Item.plain).flatMap Item.text = raw ∧
    (raw.map Item.plain).flatMap (Item.value q) = raw := by
  induction h with
  | nil => simp
  | plain h1 h2 h3 h4 ih =>
    simp only [List.mem_cons, not_or] at hb
    obtain ⟨i1, i2, i3⟩ := ih hb.2
    refine ⟨?_, by simp [Item.text, i2], by simp [Item.value, i3]⟩
    intro i hi
    simp only [List.map_cons, List.mem_cons] at hi
    rcases hi with rfl | hi
    · exact ⟨h1, h2, h3⟩
    · exact i1 i hi
  | esc _ _ => simp at hb

theorem unescape_cases (src : Str) (q : Byte) (hq : Quote q) (raw rest : Str) (hr : Raw q raw) (i : Nat) (out : Str)
    (h : src.drop i = raw ++ q :: rest) :
    unescape src (i + raw.length) q i out = .error .fail ∨ ∃ items : List Item, (∀ it ∈ items, it.Valid q) ∧ raw = items.flatMap Item.text := by
  obtain ⟨q1, q2, -, q4, q5, q6, q7, q8⟩ := quote_facts hq
  induction hn : raw.length using Nat.strongRecOn generalizing raw i out with
  | _ n ih =>
    subst hn
    have hnl : i + raw.length ≤ src.length := by
      have h1 : src.drop (i + raw.length) = q :: rest := drop_add h
      have := (drop_cons h1).1; omega
    -- the step after the item `it`
    have hstep : ∀ (it : Item) raw', it.Valid q → raw = it.text ++ raw' → Raw q raw' →
        (∀ out, unescape src (i + raw.length) q (i + it.text.length) out = .error .fail ∨
          ∃ items : List Item, (∀ it ∈ items, it.Valid q) ∧ raw = items.flatMap Item.text) := by
      intro it raw' hv he hr' out
      have hpos : 0 < it.text.length := List.length_pos_iff.mpr (item_ne_nil it)
      have hl : raw.length = it.text.length + raw'.length := by rw [he]; simp
      have h' : src.drop (i + it.text.length) = raw' ++ q :: rest := drop_add (by rw [h, he]; simp)
      have := ih raw'.length (by omega) raw' hr' (i + it.text.length) out h' rfl
      rw [show i + it.text.length + raw'.length = i + raw.length by omega] at this
      rcases this with e | ⟨items, e1, e2⟩
      · exact Or.inl e
      · right
        refine ⟨it :: items, ?_, by rw [he, e2]; simp⟩
        intro x hx; simp only [List.mem_cons] at hx
        rcases hx with rfl | hx
        · exact hv
        · exact e1 x hx
    cases hr with
    | nil => right; exact ⟨[], by simp, rfl⟩
    | @plain b t h1 h2 h3 h4 =>
      have h' : src.drop i = b :: (t ++ q :: rest) := by simpa using h
      rw [unescape, if_pos (by simp), rd_cons h']
      simp only [bind, Except.bind]
      rw [if_neg h2]
      exact hstep (.plain b) t ⟨h1, h2, h3⟩ rfl h4 _
    | @esc c t ht =>
      have h' : src.drop i = ch '\\' :: c :: (t ++ q :: rest) := by simpa using h
      have hc := (drop_cons h').2.2
      rw [unescape, if_pos (by simp), rd_cons h']
      simp only [bind, Except.bind]
      rw [if_pos trivial]
      suffices hK : escape src (i + (ch '\\' :: c :: t).length) i q = .error .fail ∨
          (∃ s j, escape src (i + (ch '\\' :: c :: t).length) i q = .ok (s, j) ∧ i ≤ j ∧
            ∀ out, unescape src (i + (ch '\\' :: c :: t).length) q (j + 1) out = .error .fail ∨
              ∃ items : List Item, (∀ it ∈ items, it.Valid q) ∧ ch '\\' :: c :: t = items.flatMap Item.text) by
        rcases hK with e | ⟨s, j, e, hij, hk⟩
        · left; rw [e]
        · rw [e]
          dsimp only
          rw [if_pos hij]
          exact hk _
      have hfin : ∀ (it : Item) raw', it.Valid q → ch '\\' :: c :: t = it.text ++ raw' → Raw q raw' → (∀ b, it ≠ .plain b) →
          (∃ s j, escape src (i + (ch '\\' :: c :: t).length) i q = .ok (s, j) ∧ i ≤ j ∧
            ∀ out, unescape src (i + (ch '\\' :: c :: t).length) q (j + 1) out = .error .fail ∨
              ∃ items : List Item, (∀ it ∈ items, it.Valid q) ∧ ch '\\' :: c :: t = items.flatMap Item.text) := by
        intro it raw' hv he hr' hp
        have hpos : 0 < it.text.length := List.length_pos_iff.mpr (item_ne_nil it)
        have hl : (ch '\\' :: c :: t).length = it.text.length + raw'.length := by rw [he]; simp
        refine ⟨_, _, escape_item src q hq i it hv (raw' ++ q :: rest) (by rw [h, he]; simp) hp _ (by omega), by omega, ?_⟩
        rw [show i + it.text.length - 1 + 1 = i + it.text.length by omega]
        exact hstep it raw' hv he hr'
      cases hv : escVal q c with
      | some v => exact Or.inr <| hfin (.esc c) t (by simp [Item.Valid, hv]) rfl ht (by simp)
      | none =>
        by_cases hx : c = ch 'x'
        · subst hx
          by_cases hlen : i + 1 ≥ i + (ch '\\' :: ch 'x' :: t).length - 2
          · left; rw [escape_other src _ i q _ _ hc hv, if_pos rfl, if_pos hlen]
          · have : ∃ a b u, t = a :: b :: u := by
              match t with
              | [] => simp at hlen
              | [a] => simp at hlen
              | a :: b :: u => exact ⟨a, b, u, rfl⟩
            obtain ⟨a, b, u, rfl⟩ := this
            have ha := (drop_cons hc).2.2
            have hb := (drop_cons ha).2.2
            by_cases hha : hexDigit a = true
            · by_cases hhb : hexDigit b = true
              · refine Or.inr <| hfin (.hex a b) u ⟨hha, hhb⟩ rfl ?_ (by simp)
                exact raw_plain (raw_plain ht (hexDigit_plain a hha).2.2.2.1) (hexDigit_plain b hhb).2.2.2.1
              · left
                rw [escape_other src _ i q _ _ hc hv, if_pos rfl, if_neg hlen, parseHex_eq src (i + 1) a _ ha, hha,
                  parseHex_eq src (i + 1 + 1) b _ hb, if_neg hhb]
                rfl
            · left
              rw [escape_other src _ i q _ _ hc hv, if_pos rfl, if_neg hlen, parseHex_eq src (i + 1) a _ ha, if_neg hha]
              rfl
        · by_cases hu : c = ch 'u'
          · subst hu
            have hE := escape_other src (i + (ch '\\' :: ch 'u' :: t).length) i q _ _ hc hv
            rw [if_neg (by decide), if_pos rfl, if_neg (by simp)] at hE
            have hrd : ∃ b u, t ++ q :: rest = b :: u := by cases t <;> exact ⟨_, _, rfl⟩
            obtain ⟨b, u, hbu⟩ := hrd
            have hb := (drop_cons hc).2.2
            rw [hbu] at hb
            rw [rd_cons hb] at hE
            simp only [bind, Except.bind] at hE
            by_cases hbr : b = ch '{'
            · rw [if_neg (by simpa using hbr)] at hE
              have hu := (drop_cons hb).2.2
              subst hbr
              -- the brace is inside the literal
              obtain ⟨t', rfl⟩ : ∃ t', t = ch '{' :: t' := by
                cases t with
                | nil => simp at hbu; exact absurd hbu.1 q4
                | cons y t' => simp at hbu; exact ⟨t', by rw [hbu.1]⟩
              simp at hbu
              have hU := uLoop_cases src (i + (ch '\\' :: ch 'u' :: ch '{' :: t').length) u (i + 1 + 1) 0 0 hu hnl (by omega)
              rcases hU with hU | ⟨ds, w, e1, e2, e3, e4⟩
              · left; rw [hE, hU]
              · -- the digits and the brace are inside the literal
                simp only [List.length_cons] at e3
                have hbs : ∀ b ∈ ds ++ [ch '}'], b ≠ ch '\\' := by
                  intro b hb; simp only [List.mem_append, List.mem_cons, List.not_mem_nil, or_false] at hb
                  rcases hb with hb | rfl
                  · exact (hexDigit_plain b (e2 b hb)).2.2.2.1
                  · decide
                obtain ⟨w', rfl⟩ : ∃ w', t' = (ds ++ [ch '}']) ++ w' := by
                  have : ds ++ [ch '}'] <+: t' := by
                    have hp1 : ds ++ [ch '}'] <+: u := ⟨w, by rw [e1]; simp⟩
                    have hp2 : t' <+: u := ⟨q :: rest, hbu⟩
                    exact List.prefix_of_prefix_length_le hp1 hp2 (by simp; omega)
                  obtain ⟨w', hw'⟩ := this
                  exact ⟨w', hw'.symm⟩
                have hw : src.drop (i + 1 + 1 + 1) = ds ++ ch '}' :: (w' ++ q :: rest) := by
                  rw [hu, ← hbu]; simp
                rw [uLoop_eq src _ ds _ _ 0 0 hw e2 (by simp; omega) e4] at hE
                dsimp only at hE
                by_cases hz : ds.length = 0
                · left; rw [hE, if_pos (by omega)]
                · by_cases hbig : hexNum ds ≤ 0x10ffff
                  · refine Or.inr <| hfin (.uni ds) w' ⟨by omega, by omega, e2, hbig⟩ (by simp [Item.text]) ?_ (by simp)
                    exact raw_drop (ds ++ [ch '}']) w' (raw_plain ht (by decide)) hbs
                  · left
                    have := Unicode.C20_encode_out_of_range (hexNum ds) (by omega)
                    unfold hexNum at this
                    rw [hE, if_neg (by omega), if_pos this]
            · left; rw [hE, if_pos hbr]
          · left; rw [escape_other src _ i q _ _ hc hv, if_neg hx, if_neg hu]

/-! ### The whole literal -/

theorem literal_ok (src : Str) (st : St) (q : Byte) (hq : Quote q) (items : List Item) (hi : ∀ i ∈ items, i.Valid q) (rest : Str)
    (h1 : q = ch '\'' → (items.flatMap (Item.value q)).length = 1)
    (h : src.drop st.idx = (q :: (items.flatMap Item.text ++ [q])) ++ rest) :
    literal src q st = .ok
      { idx := st.idx + (q :: (items.flatMap Item.text ++ [q])).length
        line := (adv (q :: (items.flatMap Item.text ++ [q])) st.idx (st.line, st.lidx)).1
        lidx := (adv (q :: (items.flatMap Item.text ++ [q])) st.idx (st.line, st.lidx)).2
        tokens := st.tokens ++ [⟨if q = ch '\'' then .char else .str, items.flatMap (Item.value q), st.line, st.idx - st.lidx,
          (q :: (items.flatMap Item.text ++ [q])).length⟩] } := by
  obtain ⟨q1, q2, -⟩ := quote_facts hq
  have h' : src.drop st.idx = q :: (items.flatMap Item.text ++ q :: rest) := by simpa using h
  have h2 := (drop_cons h').2.2
  have hS := strLoop_items src q hq items hi rest (st.idx + 1) (st.line, st.lidx) false h2
  have hadv : adv (q :: (items.flatMap Item.text ++ [q])) st.idx (st.line, st.lidx) =
      adv (items.flatMap Item.text) (st.idx + 1) (st.line, st.lidx) := by
    rw [adv, if_neg q2, adv_append, adv_none [q] (by simpa using fun e => q2 e.symm)]
  unfold literal
  dsimp only
  rw [hS, hadv]
  simp only [bind, Except.bind, Bool.not_true, Bool.false_eq_true, if_false, Bool.false_or]
  have hval : litValue src q st.idx (st.idx + 1 + (items.flatMap Item.text).length + 1) ((items.flatMap Item.text).contains (ch '\\')) =
      .ok (items.flatMap (Item.value q)) := by
    unfold litValue
    split_ifs with hb
    · have := unescape_items src q hq items hi rest (st.idx + 1) [] h2
      rw [Nat.add_sub_cancel]; simpa using this
    · have hs := slice_eq h2 (by have := (drop_cons h').1; omega)
      rw [Nat.add_sub_cancel, hs]
      congr 1
      have hall : ∀ l : List Item, (ch '\\' ∉ l.flatMap Item.text) → l.flatMap Item.text = l.flatMap (Item.value q) := by
        intro l
        induction l with
        | nil => intro _; rfl
        | cons i l ih =>
          intro hl
          simp only [List.flatMap_cons, List.mem_append, not_or] at hl ⊢
          rw [ih hl.2]
          congr 1
          cases i with
          | plain b => rfl
          | esc c => exact absurd (by simp [Item.text]) hl.1
          | hex a b => exact absurd (by simp [Item.text]) hl.1
          | uni ds => exact absurd (by simp [Item.text]) hl.1
      exact hall items (by simpa using hb)
  rw [hval]
  dsimp only
  rw [if_neg (by rintro ⟨e1, e2⟩; exact e2 (h1 e1))]
  congr 2
  · simp; omega
  · congr 3
    · push_cast; omega
    · simp; omega

theorem literal_cases (src : Str) (st : St) (q : Byte) (hq : Quote q) (t : Str) (h : src.drop st.idx = q :: t) :
    literal src q st = .error .fail ∨ ∃ (items : List Item) (rest : Str), t = items.flatMap Item.text ++ q :: rest ∧ (∀ i ∈ items, i.Valid q) ∧
      (q = ch '\'' → (items.flatMap (Item.value q)).length = 1) := by
  obtain ⟨q1, q2, q3, -⟩ := quote_facts hq
  have h2 := (drop_cons h).2.2
  rcases strLoop_cases src q st.idx (drop_cons h).2.1 q3 t (st.idx + 1) st.line st.lidx false (by omega) h2 with
    e | ⟨r, e, e'⟩ | ⟨raw, rest, r, rfl, e2, e3, e4, e5, e6⟩
  · left; unfold literal; dsimp only; rw [e]; rfl
  · left; unfold literal; dsimp only; rw [e]; simp [bind, Except.bind, e']
  · -- the value
    have hval : litValue src q st.idx r.idx r.esc = .error .fail ∨ ∃ items : List Item, (∀ it ∈ items, it.Valid q) ∧ raw = items.flatMap Item.text := by
      unfold litValue
      split_ifs with hb
      · have := unescape_cases src q hq raw rest e2 (st.idx + 1) [] h2
        rw [e5, Nat.add_sub_cancel]; exact this
      · right
        rw [e6] at hb
        obtain ⟨i1, i2, i3⟩ := raw_no_bs raw e2 (by simpa using hb)
        exact ⟨_, i1, i2.symm⟩
    rcases hval with hval | ⟨items, i1, rfl⟩
    · left; unfold literal; dsimp only; rw [e3]; simp [bind, Except.bind, e4, hval]
    · by_cases hch : q = ch '\'' → (items.flatMap (Item.value q)).length = 1
      · right; exact ⟨items, rest, rfl, i1, hch⟩
      · left
        have hS := strLoop_items src q hq items i1 rest (st.idx + 1) (st.line, st.lidx) false h2
        rw [hS] at e3
        injection e3 with e3
        subst e3
        have hval : litValue src q st.idx (st.idx + 1 + (items.flatMap Item.text).length + 1) ((items.flatMap Item.text).contains (ch '\\')) =
            .ok (items.flatMap (Item.value q)) := by
          -- as for a string literal
          unfold litValue
          split_ifs with hb
          · have := unescape_items src q hq items i1 rest (st.idx + 1) [] h2
            rw [Nat.add_sub_cancel]; simpa using this
          · have hs := slice_eq h2 (by have := (drop_cons h).1; omega)
            rw [Nat.add_sub_cancel, hs]
            congr 1
            have hall : ∀ l : List Item, (ch '\\' ∉ l.flatMap Item.text) → l.flatMap Item.text = l.flatMap (Item.value q) := by
              intro l
              induction l with
              | nil => intro _; rfl
              | cons i l ih =>
                intro hl
                simp only [List.flatMap_cons, List.mem_append, not_or] at hl ⊢
                rw [ih hl.2]
                congr 1
                cases i with
                | plain b => rfl
                | esc c => exact absurd (by simp [Item.text]) hl.1
                | hex a b => exact absurd (by simp [Item.text]) hl.1
                | uni ds => exact absurd (by simp [Item.text]) hl.1
            exact hall items (by simpa using hb)
        unfold literal
        dsimp only
        rw [hS]
        simp only [bind, Except.bind, Bool.not_true, Bool.false_eq_true, if_false, Bool.false_or]
        rw [hval]
        dsimp only
        rw [if_pos (by push Not at hch; exact hch)]

end Verif.Lexer

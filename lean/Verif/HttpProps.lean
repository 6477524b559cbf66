import Verif.Http
import Verif.PreludeProps
/-! # C40: requests -/
namespace Verif.Http
open Verif Verif.Prelude

/-! ### the specification: what a request looks like on the wire -/

/-- the request line -/
def line (url : Str) : Str := str "GET " ++ url ++ str " HTTP/1.1"

/-- a request on the wire: request line, then the header block, which begins and ends with line ends -/
def wire (r : Request) : Str := line r.url ++ r.headers

/-- a proper request: the url begins with a slash and has no spaces; there is no line end inside the request line; the
header block begins with a line end and ends where the first empty line does -/
structure Good (r : Request) : Prop where
  slash : ∃ t, r.url = 47#8 :: t
  space : 32#8 ∉ r.url
  oneLine : ∀ k, ¬ Occurs (line r.url) CRLF k
  start : ∃ t, r.headers = CRLF ++ t
  stop : Occurs r.headers (CRLF ++ CRLF) (r.headers.length - 4)
  first : ∀ k < r.headers.length - 4, ¬ Occurs r.headers (CRLF ++ CRLF) k

/-- a request the server has room for -/
def Fits (r : Request) : Prop := (line r.url).length + 2 ≤ 4096 ∧ r.headers.length ≤ 65536

/-! ### searching -/

theorem findIn_hit (h : Str) (n : Needle Byte) (start stop k : Nat) (hs : start ≤ stop) (hl : stop ≤ h.length) (hk : OccursIn h n.items start stop k)
    (hm : ∀ j < k, ¬ OccursIn h n.items start stop j) : findIn h n start stop = some (k : Int) := by
  obtain ⟨r, e, ⟨_, hn⟩ | ⟨k', rfl, h1, h2⟩⟩ := find_window h n start stop hs hl
  · exact absurd hk (hn k)
  · have h3 : ¬ k < k' := fun h => h2 k h hk
    have h4 : ¬ k' < k := fun h => hm k' h h1
    rw [e, show k' = k by omega]

theorem findIn_miss (h : Str) (n : Needle Byte) (start stop : Nat) (hs : start ≤ stop) (hl : stop ≤ h.length) (hm : ∀ j, ¬ OccursIn h n.items start stop j) :
    findIn h n start stop = some (-1) := by
  obtain ⟨r, e, ⟨rfl, _⟩ | ⟨k', rfl, h1, h2⟩⟩ := find_window h n start stop hs hl
  · exact e
  · exact absurd h1 (hm k')

theorem occurs_one (h : Str) (c : Byte) (k : Nat) : Occurs h [c] k ↔ h[k]? = some c := by
  rw [occurs_iff]
  constructor
  · rintro ⟨_, h2⟩
    have := h2 0 (by simp)
    simpa using this
  · intro h1
    have : k < h.length := by
      rcases Nat.lt_or_ge k h.length with h' | h'
      · exact h'
      · rw [List.getElem?_eq_none h'] at h1; cases h1
    refine ⟨by simp; omega, fun j hj => ?_⟩
    have : j = 0 := by simpa using hj
    subst this
    simpa using h1

theorem getElem_mem_not {p : Str} {c : Byte} (h : c ∉ p) (k : Nat) : p[k]? ≠ some c := by
  intro h1
  exact h (List.mem_of_getElem? h1)

/-- every line has no space, one, or at least two -/
theorem spaces (l : Str) : 32#8 ∉ l ∨ (∃ p q, l = p ++ 32#8 :: q ∧ 32#8 ∉ p ∧ 32#8 ∉ q) ∨
    (∃ p u v, l = p ++ 32#8 :: (u ++ 32#8 :: v) ∧ 32#8 ∉ p ∧ 32#8 ∉ u) := by
  have cut : ∀ l : Str, 32#8 ∉ l ∨ ∃ p q, l = p ++ 32#8 :: q ∧ 32#8 ∉ p := by
    intro l
    induction l with
    | nil => left; simp
    | cons x xs ih =>
      by_cases hx : x = 32#8
      · right; exact ⟨[], xs, by rw [hx]; rfl, by simp⟩
      · rcases ih with h | ⟨p, q, rfl, h⟩
        · left
          rw [List.mem_cons, not_or]
          exact ⟨fun h' => hx h'.symm, h⟩
        · right
          refine ⟨x :: p, q, rfl, ?_⟩
          rw [List.mem_cons, not_or]
          exact ⟨fun h' => hx h'.symm, h⟩
  rcases cut l with h | ⟨p, q, rfl, h⟩
  · exact Or.inl h
  · right
    rcases cut q with h1 | ⟨u, v, rfl, h1⟩
    · exact Or.inl ⟨p, q, rfl, h, h1⟩
    · exact Or.inr ⟨p, u, v, rfl, h, h1⟩

theorem findItem_hit (p q : Str) (c : Byte) (h : c ∉ p) : findItem (p ++ c :: q) c = some (p.length : Int) := by
  obtain ⟨r, e, hf⟩ := findItem_first (p ++ c :: q) c
  have : IsFirst (p ++ c :: q) [c] (p.length : Int) := by
    refine Or.inr ⟨p.length, rfl, ⟨p, q, by simp, rfl⟩, fun j hj ho => ?_⟩
    rw [occurs_one, List.getElem?_append_left hj] at ho
    exact getElem_mem_not h j ho
  rw [e, isFirst_unique hf this]

theorem findItem_miss (p : Str) (c : Byte) (h : c ∉ p) : findItem p c = some (-1) := by
  obtain ⟨r, e, hf⟩ := findItem_first p c
  have : IsFirst p [c] (-1) := Or.inl ⟨rfl, fun k ho => by rw [occurs_one] at ho; exact getElem_mem_not h k ho⟩
  rw [e, isFirst_unique hf this]

/-- what becomes of the request line -/
theorem requestLine_spec (l hdrs : Str) : ∃ o, requestLine l hdrs = some o ∧
    ∀ r, o = .success r ↔ l = line r.url ∧ r.headers = hdrs ∧ (∃ t, r.url = 47#8 :: t) ∧ 32#8 ∉ r.url := by
  have hline : ∀ u, line u = str "GET" ++ 32#8 :: (u ++ 32#8 :: str "HTTP/1.1") := by
    intro u; simp [line, str, ch]
  have hG : 32#8 ∉ str "GET" := by decide
  have uniq : ∀ (p q p' q' : Str), 32#8 ∉ p → 32#8 ∉ p' → p ++ 32#8 :: q = p' ++ 32#8 :: q' → p = p' ∧ q = q' := by
    intro p
    induction p with
    | nil =>
      intro q p' q' _ h2 h3
      cases p' with
      | nil => simpa using h3
      | cons y ys =>
        simp only [List.nil_append, List.cons_append, List.cons.injEq] at h3
        exact absurd (by rw [h3.1]; simp) h2
    | cons x xs ih =>
      intro q p' q' h1 h2 h3
      cases p' with
      | nil =>
        simp only [List.nil_append, List.cons_append, List.cons.injEq] at h3
        exact absurd (by rw [← h3.1]; simp) h1
      | cons y ys =>
        simp only [List.cons_append, List.cons.injEq] at h3
        have := ih q ys q' (fun h => h1 (List.mem_cons_of_mem _ h)) (fun h => h2 (List.mem_cons_of_mem _ h)) h3.2
        exact ⟨by rw [h3.1, this.1], this.2⟩
  have fatal : ∀ (e : Str), (∀ r : Request, ¬ (l = line r.url ∧ r.headers = hdrs ∧ (∃ t, r.url = 47#8 :: t) ∧ 32#8 ∉ r.url)) →
      ∀ r, Outcome.fatal e = .success r ↔ l = line r.url ∧ r.headers = hdrs ∧ (∃ t, r.url = 47#8 :: t) ∧ 32#8 ∉ r.url := by
    intro e h r
    constructor
    · intro h1; cases h1
    · intro h1; exact absurd h1 (h r)
  unfold requestLine
  rcases spaces l with h | ⟨p, q, rfl, hp, hq⟩ | ⟨p, u, v, rfl, hp, hu⟩
  · rw [findItem_miss l _ h]
    refine ⟨_, rfl, fatal _ fun r hr => h ?_⟩
    rw [hr.1, hline]; simp
  · rw [findItem_hit p q _ hp]
    simp only [Option.bind_some]
    have no : ∀ r : Request, ¬ (p ++ 32#8 :: q = line r.url ∧ r.headers = hdrs ∧ (∃ t, r.url = 47#8 :: t) ∧ 32#8 ∉ r.url) := by
      rintro r ⟨h1, _⟩
      rw [hline] at h1
      have := (uniq _ _ _ _ hp hG h1).2
      apply hq; rw [this]; simp
    by_cases h3 : (p.length : Int) < 3
    · rw [if_pos h3]; exact ⟨_, rfl, fatal _ no⟩
    · rw [if_neg h3]
      have hlen : (p ++ 32#8 :: q).length = p.length + 1 + q.length := by simp; omega
      rw [findIn_miss (p ++ 32#8 :: q) (.one 32#8) _ _ (by omega) (Nat.le_refl _) (by
        rintro j ⟨h4, h5, _⟩
        rw [show (Needle.one 32#8).items = [32#8] from rfl, occurs_one] at h4
        rw [List.getElem?_append_right (by omega), show j - p.length = (j - p.length - 1) + 1 by omega, List.getElem?_cons_succ] at h4
        exact getElem_mem_not hq _ h4)]
      simp only [Option.bind_some]
      rw [if_pos (by omega)]
      exact ⟨_, rfl, fatal _ no⟩
  · rw [findItem_hit p _ _ hp]
    simp only [Option.bind_some]
    generalize hl : p ++ 32#8 :: (u ++ 32#8 :: v) = l at *
    have hlen : l.length = p.length + 1 + u.length + 1 + v.length := by rw [← hl]; simp; omega
    have char : ∀ r : Request, (l = line r.url ∧ r.headers = hdrs ∧ (∃ t, r.url = 47#8 :: t) ∧ 32#8 ∉ r.url) ↔
        (p = str "GET" ∧ v = str "HTTP/1.1" ∧ (∃ t, u = 47#8 :: t) ∧ r = ⟨u, hdrs⟩) := by
      intro r
      constructor
      · rintro ⟨h1, h2, h3, h4⟩
        rw [hline, ← hl] at h1
        obtain ⟨a, b⟩ := uniq _ _ _ _ hp hG h1
        obtain ⟨c, d⟩ := uniq _ _ _ _ hu h4 b
        refine ⟨a, d, by rw [c]; exact h3, ?_⟩
        cases r; simp_all
      · rintro ⟨h1, h2, h3, rfl⟩
        refine ⟨by rw [hline, ← hl, h1, h2], rfl, h3, hu⟩
    by_cases h3 : (p.length : Int) < 3
    · rw [if_pos h3]
      refine ⟨_, rfl, fatal _ fun r hr => ?_⟩
      have := ((char r).1 hr).1
      rw [this] at h3
      exact absurd h3 (by decide)
    · rw [if_neg h3]
      have hs1 : findIn l (.one 32#8) ((p.length : Int) + 1).toNat l.length = some ((p.length + 1 + u.length : Nat) : Int) := by
        apply findIn_hit _ _ _ _ _ (by omega) (Nat.le_refl _)
        · refine ⟨?_, by omega, by show _ + 1 ≤ _; omega⟩
          show Occurs l [32#8] _
          refine ⟨p ++ 32#8 :: u, v, by rw [← hl]; simp, by simp; omega⟩
        · rintro j hj ⟨h4, h5, _⟩
          rw [show (Needle.one 32#8).items = [32#8] from rfl, occurs_one, ← hl] at h4
          rw [List.getElem?_append_right (by omega), show j - p.length = (j - p.length - 1) + 1 by omega, List.getElem?_cons_succ,
            List.getElem?_append_left (by omega)] at h4
          exact getElem_mem_not hu _ h4
      rw [hs1]
      simp only [Option.bind_some]
      rw [if_neg (by omega)]
      have w1 : window l (((p.length + 1 + u.length : Nat) : Int) + 1).toNat l.length = some v := by
        rw [window_ok _ _ _ (by omega) (Nat.le_refl _), List.take_length, ← hl,
          show (((p.length + 1 + u.length : Nat) : Int) + 1).toNat = (p ++ 32#8 :: (u ++ [32#8])).length by simp; omega,
          show p ++ 32#8 :: (u ++ 32#8 :: v) = (p ++ 32#8 :: (u ++ [32#8])) ++ v by simp, List.drop_left]
      have w2 : window l ((p.length : Int) + 1).toNat (((p.length + 1 + u.length : Nat) : Int)).toNat = some u := by
        rw [window_ok _ _ _ (by omega) (by omega), ← hl,
          show (((p.length + 1 + u.length : Nat) : Int)).toNat = (p ++ 32#8 :: u).length by simp; omega,
          show p ++ 32#8 :: (u ++ 32#8 :: v) = (p ++ 32#8 :: u) ++ (32#8 :: v) by simp, List.take_left,
          show ((p.length : Int) + 1).toNat = (p ++ [32#8]).length by simp,
          show p ++ 32#8 :: u = (p ++ [32#8]) ++ u by simp, List.drop_left]
      have w3 : window l 0 ((p.length : Int)).toNat = some p := by
        rw [window_ok _ _ _ (by omega) (by omega), List.drop_zero, ← hl, show ((p.length : Int)).toNat = p.length by omega, List.take_left]
      rw [w1, w2, w3]
      simp only [Option.bind_some]
      by_cases hv : v = str "HTTP/1.1"
      · rw [if_neg (by simpa using hv)]
        by_cases hm : p = str "GET"
        · rw [if_neg (by simpa using hm)]
          obtain ⟨⟨b, e, hb⟩, _⟩ := starts_ends_iff u (.one 47#8)
          rw [e]
          simp only [Option.bind_some]
          by_cases hsl : b = true
          · rw [if_neg (by simpa using hsl)]
            refine ⟨_, rfl, fun r => ?_⟩
            rw [char]
            have : ∃ t, u = 47#8 :: t := by simpa [Needle.items] using hb.1 hsl
            simp only [hm, hv, this, true_and]
            constructor
            · intro h; cases h; rfl
            · intro h; rw [h]
          · rw [if_pos (by simpa using hsl)]
            refine ⟨_, rfl, fatal _ fun r hr => hsl (hb.2 ?_)⟩
            obtain ⟨_, _, ⟨t, ht⟩, _⟩ := (char r).1 hr
            exact ⟨t, by rw [ht]; rfl⟩
        · rw [if_pos (by simpa using hm)]
          exact ⟨_, rfl, fatal _ fun r hr => hm ((char r).1 hr).1⟩
      · rw [if_pos (by simpa using hv)]
        exact ⟨_, rfl, fatal _ fun r hr => hv ((char r).1 hr).2.1⟩

/-! ### the first read -/

theorem occurs_left {a b n : Str} {k : Nat} (h : Occurs a n k) : Occurs (a ++ b) n k := occurs_append _ _ _ _ h

theorem occurs_take {c n : Str} {k m : Nat} (h : Occurs c n k) (hk : k + n.length ≤ m) : Occurs (c.take m) n k := by
  rw [occurs_iff] at h ⊢
  refine ⟨by rw [List.length_take]; omega, fun j hj => ?_⟩
  rw [List.getElem?_take_of_lt (by omega)]; exact h.2 j hj

theorem occurs_of_take {c n : Str} {k m : Nat} (h : Occurs (c.take m) n k) : Occurs c n k ∧ k + n.length ≤ m := by
  rw [occurs_iff] at h ⊢
  rw [List.length_take] at h
  refine ⟨⟨by omega, fun j hj => ?_⟩, by omega⟩
  rw [← h.2 j hj, List.getElem?_take_of_lt (by omega)]

theorem occurs_drop {c n : Str} {k m : Nat} : Occurs (c.drop m) n k ↔ (Occurs c n (m + k) ∧ m ≤ c.length) ∨ (n = [] ∧ k = 0 ∧ c.length < m) := by
  rw [occurs_iff, occurs_iff, List.length_drop]
  constructor
  · rintro ⟨h1, h2⟩
    by_cases hm : m ≤ c.length
    · left
      refine ⟨⟨by omega, fun j hj => ?_⟩, hm⟩
      rw [← h2 j hj, List.getElem?_drop, Nat.add_assoc]
    · right
      exact ⟨List.length_eq_zero_iff.1 (by omega), by omega, by omega⟩
  · rintro (⟨⟨h1, h2⟩, h3⟩ | ⟨rfl, rfl, h3⟩)
    · refine ⟨by omega, fun j hj => ?_⟩
      rw [List.getElem?_drop, ← Nat.add_assoc, h2 j hj]
    · simp

/-- **C40** Whatever arrives in the first read, the server decides at once: it never waits for more, and never faults. -/
theorem first_read_decided (c : Str) : ∃ b o, tryParseRequest ⟨c, 0, 0⟩ 0 c.length = some (b, o) := by
  unfold tryParseRequest startLine
  dsimp only
  rw [if_neg (by simp)]
  obtain ⟨r, e, h⟩ := find_window c (.many CRLF) 0 (min c.length 4096) (by omega) (by omega)
  rw [show 0 - 1 = 0 from rfl, e]
  simp only [Option.map_some, Option.bind_some]
  rcases h with ⟨rfl, _⟩ | ⟨k, rfl, hk, _⟩
  · rw [if_neg (by decide), if_pos (by omega)]
    exact ⟨_, _, rfl⟩
  · rw [if_pos (by omega)]
    dsimp only
    unfold headers
    dsimp only
    rw [if_neg (by simp)]
    have hk1 : k + 2 ≤ min c.length 4096 := hk.2.2
    obtain ⟨r, e, h⟩ := find_window c (.many (CRLF ++ CRLF)) k (min c.length (k + 65536)) (by omega) (by omega)
    rw [show max (0 - 3) (k : Int).toNat = k by omega, show ((k : Int)).toNat = k by omega, e]
    simp only [Option.map_some, Option.bind_some]
    rcases h with ⟨rfl, _⟩ | ⟨p, rfl, hp, _⟩
    · rw [if_neg (by decide), if_pos (by omega)]
      exact ⟨_, _, rfl⟩
    · rw [if_pos (by omega)]
      dsimp only
      have hp1 : p + 4 ≤ min c.length (k + 65536) := hp.2.2
      have hp2 : k ≤ p := hp.2.1
      unfold serve
      dsimp only
      rw [window_ok _ _ _ (by omega) (by omega)]
      simp only [Option.bind_some]
      rw [window_ok _ _ _ (by omega) (by simp; omega)]
      simp only [Option.bind_some]
      obtain ⟨o, e, _⟩ := requestLine_spec ((List.take k (List.drop 0 (List.take ((p : Int).toNat + 4) c))).drop 0) ((List.drop 0 (List.take ((p : Int).toNat + 4) c)).drop k)
      rw [e]
      exact ⟨_, _, rfl⟩

/-- **C40**, in part: of what arrives in the first read, exactly the proper requests that fit are accepted; then the handler
gets that request, and what follows it stays in the buffer.  Missing: requests that arrive in several reads or together
with others (`fragments_rejected`, `pipelining_breaks`, `leftover_faults`). -/
theorem accepted_iff_partial (c : Str) (b : ReadBuffer) (r : Request) :
    tryParseRequest ⟨c, 0, 0⟩ 0 c.length = some (b, .success r) ↔ ∃ rest, c = wire r ++ rest ∧ Good r ∧ Fits r ∧ b = ⟨rest, 0, 0⟩ := by
  constructor
  · intro h
    unfold tryParseRequest startLine at h
    dsimp only at h
    rw [if_neg (by simp)] at h
    obtain ⟨x, e, hx⟩ := find_window c (.many CRLF) 0 (min c.length 4096) (by omega) (by omega)
    rw [show 0 - 1 = 0 from rfl, e] at h
    simp only [Option.map_some, Option.bind_some] at h
    rcases hx with ⟨rfl, _⟩ | ⟨k, rfl, hk, hkm⟩
    · rw [if_neg (by decide), if_pos (by omega)] at h
      cases h
    · rw [if_pos (by omega)] at h
      dsimp only at h
      unfold headers at h
      dsimp only at h
      rw [if_neg (by simp)] at h
      have hk1 : k + 2 ≤ min c.length 4096 := hk.2.2
      obtain ⟨y, e, hy⟩ := find_window c (.many (CRLF ++ CRLF)) k (min c.length (k + 65536)) (by omega) (by omega)
      rw [show max (0 - 3) (k : Int).toNat = k by omega, show ((k : Int)).toNat = k by omega, e] at h
      simp only [Option.map_some, Option.bind_some] at h
      rcases hy with ⟨rfl, _⟩ | ⟨p, rfl, hp, hpm⟩
      · rw [if_neg (by decide), if_pos (by omega)] at h
        cases h
      · rw [if_pos (by omega)] at h
        dsimp only at h
        have hp1 : p + 4 ≤ min c.length (k + 65536) := hp.2.2
        have hp2 : k ≤ p := hp.2.1
        unfold serve at h
        dsimp only at h
        rw [window_ok _ _ _ (by omega) (by omega)] at h
        simp only [Option.bind_some] at h
        rw [window_ok _ _ _ (by omega) (by simp; omega)] at h
        simp only [Option.bind_some, List.drop_zero, show ((p : Int)).toNat = p by omega, List.take_take, show min k (p + 4) = k by omega] at h
        obtain ⟨o, e, ho⟩ := requestLine_spec (c.take k) ((c.take (p + 4)).drop k)
        rw [e] at h
        simp only [Option.map_some, Option.some.injEq, Prod.mk.injEq] at h
        obtain ⟨h1, h2⟩ := h
        obtain ⟨g1, g2, g3, g4⟩ := (ho r).1 h2
        have hl4 : ((c.take (p + 4)).drop k).length = p + 4 - k := by simp; omega
        refine ⟨c.drop (p + 4), ?_, ⟨g3, g4, ?_, ?_, ?_, ?_⟩, ⟨?_, ?_⟩, h1.symm⟩
        · unfold wire
          rw [← g1, g2]
          have : c.take k = (c.take (p + 4)).take k := by rw [List.take_take, Nat.min_eq_left (by omega)]
          rw [this, List.take_append_drop, List.take_append_drop]
        · intro j hj
          rw [← g1] at hj
          obtain ⟨a1, a2⟩ := occurs_of_take hj
          have a3 : j + 2 ≤ k := a2
          exact hkm j (by omega) ⟨a1, by omega, by show j + 2 ≤ _; omega⟩
        · rw [g2]
          obtain ⟨p1, q1, e1, e2⟩ := hk.1
          refine ⟨(q1.take (p + 4 - k - 2)), ?_⟩
          rw [e1]
          have hpl : p1.length = k := e2
          rw [List.append_assoc, List.drop_take, List.drop_append_of_le_length (by omega), ← hpl, List.drop_length, List.nil_append]
          show List.take _ (CRLF ++ q1) = _
          rw [List.take_append]
          have : CRLF.length = 2 := rfl
          rw [List.take_of_length_le (by omega), this]
        · rw [g2, hl4, occurs_drop]
          left
          refine ⟨?_, by simp; omega⟩
          rw [show k + (p + 4 - k - 4) = p by omega]
          exact occurs_take hp.1 (by show p + 4 ≤ _; omega)
        · intro j hj ho'
          rw [g2, hl4] at hj
          rw [g2, occurs_drop] at ho'
          rcases ho' with ⟨a, _⟩ | ⟨a, _⟩
          · exact hpm (k + j) (by omega) ⟨(occurs_of_take a).1, by omega, by show k + j + 4 ≤ _; omega⟩
          · cases a
        · rw [← g1, List.length_take]; omega
        · rw [g2, hl4]; omega
  · rintro ⟨rest, rfl, hg, ⟨f1, f2⟩, rfl⟩
    obtain ⟨t, ht⟩ := hg.start
    generalize hk : (line r.url).length = k at f1
    generalize hc : wire r ++ rest = c
    have hc' : c = line r.url ++ (r.headers ++ rest) := by rw [← hc]; unfold wire; rw [List.append_assoc]
    have h4 : 4 ≤ r.headers.length := by
      have := (occurs_iff _ _ _).1 hg.stop
      have h5 : (CRLF ++ CRLF).length = 4 := rfl
      rw [h5] at this
      omega
    have hlen : c.length = k + r.headers.length + rest.length := by rw [hc', List.length_append, List.length_append, hk]; omega
    unfold tryParseRequest startLine
    dsimp only
    rw [if_neg (by simp)]
    have e1 : findIn c (.many CRLF) 0 (min c.length 4096) = some (k : Int) := by
      apply findIn_hit _ _ _ _ _ (by omega) (by omega)
      · refine ⟨?_, by omega, by show k + 2 ≤ _; omega⟩
        rw [hc', ht]
        exact ⟨line r.url, t ++ rest, by show _ = _ ++ CRLF ++ _; simp, hk⟩
      · rintro j hj ⟨a, _, b⟩
        have a' := a
        rw [show (Needle.many CRLF).items = CRLF from rfl, occurs_iff] at a'
        by_cases hj1 : j + 2 ≤ k
        · apply hg.oneLine j
          have := occurs_take a (m := k) hj1
          rw [hc', ← hk, List.take_left] at this
          exact this
        · have h5 := a'.2 1 (by decide)
          rw [hc', List.getElem?_append_right (by omega), ht, show j + 1 - (line r.url).length = 0 by omega] at h5
          cases h5
    rw [show 0 - 1 = 0 from rfl, e1]
    simp only [Option.map_some, Option.bind_some]
    rw [if_pos (by omega)]
    dsimp only
    unfold headers
    dsimp only
    rw [if_neg (by simp)]
    have e2 : findIn c (.many (CRLF ++ CRLF)) k (min c.length (k + 65536)) = some ((k + (r.headers.length - 4) : Nat) : Int) := by
      apply findIn_hit _ _ _ _ _ (by omega) (by omega)
      · refine ⟨?_, by omega, by show k + (r.headers.length - 4) + 4 ≤ _; omega⟩
        obtain ⟨p1, q1, a1, a2⟩ := hg.stop
        refine ⟨line r.url ++ p1, q1 ++ rest, ?_, by rw [List.length_append, hk, a2]⟩
        show _ = _ ++ (CRLF ++ CRLF) ++ _
        rw [hc', a1]; simp
      · rintro j hj ⟨a, b1, b2⟩
        apply hg.first (j - k) (by omega)
        have : Occurs ((c.drop k).take r.headers.length) (CRLF ++ CRLF) (j - k) := by
          apply occurs_take
          · rw [occurs_drop]; left
            rw [show k + (j - k) = j by omega]
            exact ⟨a, by omega⟩
          · show j - k + 4 ≤ _; omega
        rw [hc', ← hk, List.drop_left, List.take_left] at this
        rw [← hk]; exact this
    rw [show max (0 - 3) (k : Int).toNat = k by omega, show ((k : Int)).toNat = k by omega, e2]
    simp only [Option.map_some, Option.bind_some]
    rw [if_pos (by omega)]
    dsimp only
    have hE : (((k + (r.headers.length - 4) : Nat) : Int)).toNat + 4 = (wire r).length := by
      unfold wire; rw [List.length_append, hk]; omega
    unfold serve
    dsimp only
    rw [hE]
    have hw : (wire r).length = k + r.headers.length := by unfold wire; rw [List.length_append, hk]
    rw [window_ok _ _ _ (by omega) (by omega), List.drop_zero]
    have ht1 : c.take (wire r).length = wire r := by rw [← hc, List.take_left]
    rw [ht1]
    simp only [Option.bind_some]
    rw [window_ok _ _ _ (by omega) (by omega), List.drop_zero]
    simp only [Option.bind_some]
    have ht2 : (wire r).take k = line r.url := by unfold wire; rw [← hk, List.take_left]
    have ht3 : (wire r).drop k = r.headers := by unfold wire; rw [← hk, List.drop_left]
    rw [ht2, ht3]
    obtain ⟨o, e, ho⟩ := requestLine_spec (line r.url) r.headers
    have := (ho r).2 ⟨rfl, rfl, hg.slash, hg.space⟩
    rw [e, this]
    simp only [Option.map_some]
    congr 3
    rw [← hc, List.drop_left]

/-- **C40 is false**: every proper request of which only a part arrives in the first read is refused, whatever follows. -/
theorem fragments_rejected (r : Request) (hg : Good r) (p q : Str) (h : wire r = p ++ q) (hq : q ≠ []) :
    ∃ b e, tryParseRequest ⟨p, 0, 0⟩ 0 p.length = some (b, .fatal e) := by
  obtain ⟨b, o, e⟩ := first_read_decided p
  cases o with
  | fatal reason => exact ⟨b, reason, e⟩
  | success r' =>
    exfalso
    obtain ⟨rest, h1, hg', _, _⟩ := (accepted_iff_partial p b r').1 e
    obtain ⟨t, ht⟩ := hg.start
    -- the end of the accepted request is an empty line inside the longer one
    have hq' : 0 < q.length := List.length_pos_iff.2 hq
    obtain ⟨p1, q1, a1, a2⟩ := hg'.stop
    have h4 : 4 ≤ r'.headers.length := by
      have := (occurs_iff _ _ _).1 hg'.stop
      have h5 : (CRLF ++ CRLF).length = 4 := rfl
      rw [h5] at this
      omega
    have ho : Occurs (wire r) (CRLF ++ CRLF) ((wire r').length - 4) := by
      refine ⟨line r'.url ++ p1, q1 ++ rest ++ q, ?_, ?_⟩
      · rw [h, h1]; unfold wire; rw [a1]; simp
      · unfold wire; rw [List.length_append, List.length_append, a2]; omega
    have hlen : (wire r').length + rest.length + q.length = (wire r).length := by
      rw [h, h1]; simp; omega
    have hw : (wire r).length = (line r.url).length + r.headers.length := by unfold wire; rw [List.length_append]
    have hw' : (wire r').length = (line r'.url).length + r'.headers.length := by unfold wire; rw [List.length_append]
    have ho' := (occurs_iff _ _ _).1 ho
    by_cases hk : (line r.url).length ≤ (wire r').length - 4
    · apply hg.first ((wire r').length - 4 - (line r.url).length) (by omega)
      have : Occurs ((wire r).drop (line r.url).length) (CRLF ++ CRLF) ((wire r').length - 4 - (line r.url).length) := by
        rw [occurs_drop]; left
        rw [show (line r.url).length + ((wire r').length - 4 - (line r.url).length) = (wire r').length - 4 by omega]
        exact ⟨ho, by omega⟩
      unfold wire at this ⊢
      rw [List.drop_left] at this
      exact this
    · generalize hj : (wire r').length - 4 = j at *
      by_cases hj1 : j + 2 ≤ (line r.url).length
      · apply hg.oneLine j
        have h6 : Occurs (wire r) CRLF j := by
          rw [occurs_iff]
          refine ⟨by have := ho'.1; have h7 : (CRLF ++ CRLF).length = 4 := rfl; have h8 : CRLF.length = 2 := rfl; omega, fun i hi => ?_⟩
          have h8 : CRLF.length = 2 := rfl
          rw [ho'.2 i (by rw [List.length_append]; omega), List.getElem?_append_left hi]
        have := occurs_take h6 (m := (line r.url).length) hj1
        unfold wire at this
        rw [List.take_left] at this
        exact this
      · have h5 := ho'.2 1 (by decide)
        have hj2 : j + 1 = (line r.url).length := by omega
        unfold wire at h5
        rw [hj2, List.getElem?_append_right (by omega), ht, Nat.sub_self] at h5
        cases h5

/-! ### a connection -/

/-- the reads of a connection, in order -/
def reads (answer : Request → List Response) (c : Conn) (chunks : List Str) : Option Conn := chunks.foldlM (onRead answer) c

/-- **C40**, in part: requests that each arrive in a read of their own are all served, in order - when the handler answers
nothing (answers are C39, C67). -/
theorem one_by_one_partial (rs : List Request) (h : ∀ r ∈ rs, Good r ∧ Fits r) :
    reads (fun _ => []) fresh (rs.map wire) = some { fresh with served := rs } := by
  have main : ∀ (rs done : List Request), (∀ r ∈ rs, Good r ∧ Fits r) →
      reads (fun _ => []) { fresh with served := done } (rs.map wire) = some { fresh with served := done ++ rs } := by
    intro rs
    induction rs with
    | nil => intro done _; simp [reads]
    | cons r rs ih =>
      intro done h
      obtain ⟨hg, hf⟩ := h r (List.mem_cons_self ..)
      have hr : onRead (fun _ => []) { fresh with served := done } (wire r) = some { fresh with served := done ++ [r] } := by
        unfold onRead fresh
        dsimp only
        rw [List.nil_append, List.length_nil, (accepted_iff_partial (wire r) ⟨[], 0, 0⟩ r).2 ⟨[], by simp, hg, hf, rfl⟩]
        rfl
      unfold reads
      rw [List.map_cons, List.foldlM_cons, hr]
      have := ih (done ++ [r]) (fun x hx => h x (List.mem_cons_of_mem _ hx))
      unfold reads at this
      rw [show (some { fresh with served := done ++ [r] } >>= fun s => List.foldlM (onRead fun _ => []) s (rs.map wire)) =
        List.foldlM (onRead fun _ => []) { fresh with served := done ++ [r] } (rs.map wire) from rfl, this]
      simp
  exact main rs [] h

/-- **C40 is false** of pipelined requests: two proper requests that arrive together, then a third: only the first is served,
and the connection is closed over the others. -/
theorem pipelining_breaks : ∃ (a b c : Request), Good a ∧ Good b ∧ Good c ∧
    (reads (fun _ => []) fresh [wire a ++ wire b, wire c]).map (fun s => (s.served, s.closed)) = some ([a], true) := by
  have good : ∀ t, t ∈ [97#8, 98#8, 99#8] → Good ⟨[47#8, t], CRLF ++ CRLF⟩ := by
    intro t ht
    refine ⟨⟨[t], rfl⟩, ?_, ?_, ⟨CRLF, rfl⟩, ⟨[], [], rfl, rfl⟩, fun k hk => absurd hk (Nat.not_lt_zero _)⟩
    · revert t; decide
    · intro k ho
      rw [occurs_iff] at ho
      have h0 := ho.2 0 (by decide)
      have hm : (13#8 : Byte) ∈ line [47#8, t] := List.mem_of_getElem? h0
      have : ∀ t ∈ [97#8, 98#8, 99#8], ¬ (13#8 : Byte) ∈ line [47#8, t] := by decide
      exact this t ht hm
  exact ⟨⟨[47#8, 97#8], CRLF ++ CRLF⟩, ⟨[47#8, 98#8], CRLF ++ CRLF⟩, ⟨[47#8, 99#8], CRLF ++ CRLF⟩, good _ (by simp), good _ (by simp), good _ (by simp),
    by decide +kernel⟩

/-- **C40 is false**: with more than 4097 bytes left over after a request - say of requests that arrived together with it -
the next read makes the server stop with a failed assertion. -/
theorem leftover_faults (rest chunk : Str) (h : 4097 < rest.length) (c : Conn) (hb : c.buf = ⟨rest, 0, 0⟩) (answer : Request → List Response) :
    onRead answer c chunk = none := by
  unfold onRead tryParseRequest startLine findIn window
  rw [hb]
  dsimp only
  have hw : ¬ (rest.length - 1 ≤ min (rest ++ chunk).length 4096 ∧ min (rest ++ chunk).length 4096 ≤ (rest ++ chunk).length) := by omega
  rw [if_neg (by simp), if_neg hw]
  rfl

/-! non-vacuity -/

/-- lines without line ends and not empty make a proper header block -/
example : Good ⟨str "/index", str "\r\nHost: x\r\nAccept: *\r\n\r\n"⟩ ∧ Fits ⟨str "/index", str "\r\nHost: x\r\nAccept: *\r\n\r\n"⟩ := by
  have dec : ∀ (h n : Str), (∀ k < h.length, (h.drop k).take n.length ≠ n) → n ≠ [] → ∀ k, ¬ Occurs h n k := by
    intro h n hk hn k ho
    have := (occurs_iff _ _ _).1 ho
    have hn' : 0 < n.length := List.length_pos_iff.2 hn
    obtain ⟨p, q, rfl, rfl⟩ := ho
    apply hk p.length (by simp; omega)
    simp
  refine ⟨⟨⟨str "index", rfl⟩, by decide, dec _ _ (by decide) (by decide), ⟨_, rfl⟩, ?_, ?_⟩, by decide, by decide⟩
  · exact ⟨str "\r\nHost: x\r\nAccept: *", [], by decide, by decide⟩
  · intro k hk ho
    rw [occurs_iff] at ho
    have h1 : k ∈ List.range 20 := List.mem_range.2 (Nat.lt_of_lt_of_le hk (by decide))
    have : ∀ k ∈ List.range 20, ¬ (∀ j < 4, (str "\r\nHost: x\r\nAccept: *\r\n\r\n")[k + j]? = (CRLF ++ CRLF)[j]?) := by decide
    exact this k h1 ho.2

end Verif.Http

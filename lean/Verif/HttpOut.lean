import Verif.HttpProps
import Verif.DecstrProps
/-! # C39, C67: responses, and what goes out -/
namespace Verif.Http
open Verif Verif.Prelude

/-! ### the specification: how a client reads a stream of responses -/

/-- a line, and what comes after its line end -/
def cutLine : Str → Option (Str × Str)
  | [] => none
  | c :: r =>
    if c = 13#8 ∧ r.head? = some 10#8 then some ([], r.tail)
    else (cutLine r).map fun (l, s) => (c :: l, s)

/-- lines up to an empty one -/
def fieldLines : Nat → Str → Option (List Str × Str)
  | 0, _ => none
  | n + 1, s => (cutLine s).bind fun (l, s) => if l = [] then some ([], s) else (fieldLines n s).map fun (ls, s) => (l :: ls, s)

/-- the number after the first "Content-Length: " -/
def contentLength : List Str → Option Nat
  | [] => none
  | l :: ls =>
    if (str "Content-Length: ").isPrefixOf l then
      if l.drop 16 ≠ [] ∧ (l.drop 16).all fun b => decide (48 ≤ b.toNat ∧ b.toNat ≤ 57) then some (Decstr.value (l.drop 16)) else none
    else contentLength ls

/-- what a client makes of one response -/
structure Seen where
  status : Str
  fields : List Str
  body : Str
  deriving DecidableEq

/-- one response, and what follows it: status line, fields, empty line, as many bytes as `Content-Length` says -/
def readResponse (s : Str) : Option (Seen × Str) :=
  (cutLine s).bind fun (l, s) =>
  if ¬ (str "HTTP/1.1 ").isPrefixOf l then none
  else
    (fieldLines (s.length + 1) s).bind fun (fs, s) =>
    (contentLength fs).bind fun n =>
    if s.length < n then none else some (⟨l.drop 9, fs, s.take n⟩, s.drop n)

/-- all responses of a stream (at most `n`) -/
def readAll : Nat → Str → Option (List Seen)
  | 0, s => if s = [] then some [] else none
  | n + 1, s => if s = [] then some [] else (readResponse s).bind fun (r, s) => (readAll n s).map fun rs => r :: rs

/-- a response a handler may give: one line of status, and fields, each one a line that is not empty -/
def Sound (r : Response) (fields : List Str) : Prop :=
  13#8 ∉ r.status ∧ r.headers = (fields.map fun f => f ++ CRLF).flatten ∧ ∀ f ∈ fields, f ≠ [] ∧ 13#8 ∉ f

/-! ### reading -/

theorem cutLine_hit : ∀ (l r : Str), 13#8 ∉ l → cutLine (l ++ (CRLF ++ r)) = some (l, r) := by
  intro l
  induction l with
  | nil => intro r _; rfl
  | cons c l ih =>
    intro r h
    rw [List.mem_cons, not_or] at h
    rw [List.cons_append, cutLine, if_neg (fun hc => h.1 hc.1.symm), ih r h.2]
    rfl

theorem fieldLines_hit : ∀ (ls : List Str) (n : Nat) (r : Str), (∀ l ∈ ls, l ≠ [] ∧ 13#8 ∉ l) → ls.length < n →
    fieldLines n ((ls.map fun f => f ++ CRLF).flatten ++ (CRLF ++ r)) = some (ls, r) := by
  intro ls
  induction ls with
  | nil =>
    intro n r _ hn
    cases n with
    | zero => simp at hn
    | succ n =>
      show fieldLines (n + 1) ([] ++ (CRLF ++ r)) = _
      rw [fieldLines, cutLine_hit [] r (by simp)]
      rfl
  | cons l ls ih =>
    intro n r h hn
    cases n with
    | zero => simp at hn
    | succ n =>
      obtain ⟨h1, h2⟩ := h l (List.mem_cons_self ..)
      rw [List.map_cons, List.flatten_cons, List.append_assoc, List.append_assoc, fieldLines, cutLine_hit l _ h2]
      simp only [Option.bind_some]
      rw [if_neg h1, ih n r (fun x hx => h x (List.mem_cons_of_mem _ hx)) (by simp at hn; omega)]
      rfl

/-! ### writing -/

theorem dec_spec (n : Nat) (h : n ≤ 999999999) : let d := Decstr.i64dec (BitVec.ofNat 64 n)
    d ≠ [] ∧ (∀ b ∈ d, Decstr.isDigit b) ∧ Decstr.value d = n ∧ 1 ≤ d.length ∧ d.length ≤ 9 := by
  intro d
  have hd := Decstr.i64dec_denotes (BitVec.ofNat 64 n)
  have hi : (BitVec.ofNat 64 n).toInt = (n : Int) := by
    rw [BitVec.toInt_eq_toNat_of_lt] <;> rw [BitVec.toNat_ofNat, Nat.mod_eq_of_lt (by omega)]
    omega
  rw [hi] at hd
  rcases hd with ⟨_, hc, hv⟩ | ⟨hneg, _⟩
  · have hv' : Decstr.value d = n := by exact_mod_cast hv
    have hpos : 1 ≤ d.length := List.length_pos_iff.2 hc.1
    refine ⟨hc.1, hc.2.1, hv', hpos, ?_⟩
    rcases Decstr.value_pos hc with h1 | h1
    · apply Classical.byContradiction
      intro h2
      have h3 : 10 ^ 9 ≤ 10 ^ (d.length - 1) := Nat.pow_le_pow_right (by decide) (by omega)
      have h4 : (10 : Nat) ^ 9 = 1000000000 := by decide
      have h5 : 10 ^ (d.length - 1) ≤ Decstr.value d := h1
      omega
    · have : d = [ch '0'] := h1
      rw [this]; decide
  · omega

/-- what `respond` writes -/
def text (r : Response) : Str :=
  let d := Decstr.i64dec (BitVec.ofNat 64 r.body.length)
  str "HTTP/1.1 " ++ r.status ++ CRLF ++ (str "Connection: keep-alive" ++ CRLF) ++ (str "Content-Length: " ++ d ++ CRLF) ++
    (List.replicate (10 - d.length) (ch 'X') ++ str ": X" ++ CRLF) ++ r.headers ++ CRLF ++ r.body

theorem crlf_eq : str "\r\n" = CRLF := by decide

theorem ends_ok (r : Response) (fields : List Str) (h : Sound r fields) : ¬ (r.headers ≠ [] ∧ ends r.headers (.many (str "\r\n")) ≠ some true) := by
  rintro ⟨h1, h2⟩
  apply h2
  obtain ⟨_, b, e, hb⟩ := starts_ends_iff r.headers (.many (str "\r\n"))
  rw [e]
  congr 1
  apply hb.2
  obtain ⟨_, hh, _⟩ := h
  rcases List.eq_nil_or_concat fields with rfl | ⟨fs, f, rfl⟩
  · exact absurd (by rw [hh]; rfl) h1
  · rw [hh, List.concat_eq_append, List.map_append, List.flatten_append]
    refine ⟨(fs.map fun f => f ++ CRLF).flatten ++ f, ?_⟩
    show _ = _ ++ str "\r\n"
    rw [crlf_eq]; simp

theorem blit_mid (a b c x : Str) (h : x.length = b.length) : blit (a ++ (b ++ c)) a.length x = some (a ++ (x ++ c)) := by
  rw [blit_eq _ _ _ (by simp; omega)]
  congr 1
  rw [List.take_left, h, show a.length + b.length = (a ++ b).length by simp, ← List.append_assoc a b c, List.drop_left]
  simp

theorem len_sub (a b : Str) : (a ++ b).length - a.length = b.length := by simp

theorem respond_spec (out : Str) (r : Response) (fields : List Str) (hs : Sound r fields) (hb : r.body.length ≤ 999999999) :
    respond out r = some (out ++ text r) := by
  obtain ⟨_, _, _, hd1, hd9⟩ := dec_spec r.body.length hb
  unfold respond
  dsimp only
  rw [if_neg (ends_ok r fields hs)]
  rw [len_sub, if_pos hb]
  generalize hd : Decstr.i64dec (BitVec.ofNat 64 r.body.length) = d at *
  have hfill : str "0\r\n" ++ str "XXXXXXXXX: X\r\n" = (str "0\r\n" ++ List.replicate (d.length - 1) (ch 'X')) ++
      (List.replicate (10 - d.length) (ch 'X') ++ str ": X" ++ CRLF) := by
    rw [List.append_assoc, ← List.append_assoc (List.replicate _ _), ← List.append_assoc (List.replicate _ _), List.replicate_append_replicate,
      show d.length - 1 + (10 - d.length) = 9 by omega]
    decide
  have e := blit_mid (out ++ str "HTTP/1.1 " ++ r.status ++ str "\r\n" ++ str "Connection: keep-alive\r\n" ++ str "Content-Length: ")
    (str "0\r\n" ++ List.replicate (d.length - 1) (ch 'X'))
    (List.replicate (10 - d.length) (ch 'X') ++ str ": X" ++ CRLF ++ r.headers ++ str "\r\n" ++ r.body) (d ++ str "\r\n")
    (by
      have h2 : (str "\r\n").length = 2 := by decide
      have h3 : (str "0\r\n").length = 3 := by decide
      rw [List.length_append, List.length_append, List.length_replicate, h2, h3]; omega)
  have eq1 : out ++ str "HTTP/1.1 " ++ r.status ++ str "\r\n" ++ str "Connection: keep-alive\r\n" ++ str "Content-Length: " ++ str "0\r\n" ++
      str "XXXXXXXXX: X\r\n" ++ r.headers ++ str "\r\n" ++ r.body =
      (out ++ str "HTTP/1.1 " ++ r.status ++ str "\r\n" ++ str "Connection: keep-alive\r\n" ++ str "Content-Length: ") ++
      ((str "0\r\n" ++ List.replicate (d.length - 1) (ch 'X')) ++
      (List.replicate (10 - d.length) (ch 'X') ++ str ": X" ++ CRLF ++ r.headers ++ str "\r\n" ++ r.body)) := by
    have := congrArg (fun x => out ++ str "HTTP/1.1 " ++ r.status ++ str "\r\n" ++ str "Connection: keep-alive\r\n" ++ str "Content-Length: " ++ x ++
      r.headers ++ str "\r\n" ++ r.body) hfill
    simp only [List.append_assoc] at this ⊢
    exact this
  rw [eq1, e]
  congr 1
  unfold text
  dsimp only
  rw [hd, show str "Connection: keep-alive\r\n" = str "Connection: keep-alive" ++ CRLF by decide, crlf_eq]
  simp only [List.append_assoc]

/-- the fields of a response as the client is to see them -/
def seenFields (r : Response) (fields : List Str) : List Str :=
  let d := Decstr.i64dec (BitVec.ofNat 64 r.body.length)
  [str "Connection: keep-alive", str "Content-Length: " ++ d, List.replicate (10 - d.length) (ch 'X') ++ str ": X"] ++ fields

theorem flatten_len (ls : List Str) : ls.length ≤ ((ls.map fun f => f ++ CRLF).flatten).length := by
  induction ls with
  | nil => simp
  | cons l ls ih =>
    have : CRLF.length = 2 := rfl
    rw [List.map_cons, List.flatten_cons, List.length_append, List.length_append, List.length_cons]; omega

theorem contentLength_hit (d : Str) (fs : List Str) (h0 : d ≠ []) (h1 : ∀ b ∈ d, Decstr.isDigit b) :
    contentLength (str "Connection: keep-alive" :: (str "Content-Length: " ++ d) :: fs) = some (Decstr.value d) := by
  have e1 : (str "Content-Length: ").isPrefixOf (str "Connection: keep-alive") = false := by decide
  have e2 : (str "Content-Length: ").isPrefixOf (str "Content-Length: " ++ d) = true := by
    rw [List.isPrefixOf_iff_prefix]; exact List.prefix_append _ _
  have e3 : (str "Content-Length: " ++ d).drop 16 = d := by
    rw [show (16 : Nat) = (str "Content-Length: ").length by decide, List.drop_left]
  rw [contentLength, e1]
  simp only [Bool.false_eq_true, if_false]
  rw [contentLength, e2, e3]
  simp only [if_true]
  rw [if_pos ⟨h0, List.all_eq_true.2 fun b hb => decide_eq_true (h1 b hb)⟩]

/-- **C39** A client that goes by `Content-Length` reads exactly the status, fields and body of a response, and is then at
the beginning of what follows it. -/
theorem response_read (r : Response) (fields : List Str) (hs : Sound r fields) (hb : r.body.length ≤ 999999999) (rest : Str) :
    readResponse (text r ++ rest) = some (⟨r.status, seenFields r fields, r.body⟩, rest) := by
  obtain ⟨hd0, hd1, hd2, hd3, hd4⟩ := dec_spec r.body.length hb
  generalize hd : Decstr.i64dec (BitVec.ofNat 64 r.body.length) = d at *
  obtain ⟨h1, h2, h3⟩ := hs
  have htext : text r ++ rest = (str "HTTP/1.1 " ++ r.status) ++ (CRLF ++ (((seenFields r fields).map fun f => f ++ CRLF).flatten ++ (CRLF ++ (r.body ++ rest)))) := by
    unfold text seenFields
    dsimp only
    rw [hd, h2]
    simp only [List.map_append, List.map_cons, List.map_nil, List.flatten_append, List.flatten_cons, List.flatten_nil, List.append_assoc, List.append_nil]
  unfold readResponse
  rw [htext, cutLine_hit _ _ (by
    rw [List.mem_append, not_or]
    exact ⟨by decide, h1⟩)]
  simp only [Option.bind_some]
  have hp : (str "HTTP/1.1 ").isPrefixOf (str "HTTP/1.1 " ++ r.status) = true := by
    rw [List.isPrefixOf_iff_prefix]; exact List.prefix_append _ _
  rw [if_neg (by rw [hp]; simp)]
  have hfl : ∀ f ∈ seenFields r fields, f ≠ [] ∧ 13#8 ∉ f := by
    intro f hf
    unfold seenFields at hf
    rw [hd] at hf
    rcases List.mem_append.1 hf with hf | hf
    · simp only [List.mem_cons, List.not_mem_nil, or_false] at hf
      rcases hf with rfl | rfl | rfl
      · exact ⟨by decide, by decide⟩
      · refine ⟨by intro h; exact absurd (List.append_eq_nil_iff.1 h).1 (by decide), ?_⟩
        rw [List.mem_append, not_or]
        refine ⟨by decide, fun h => ?_⟩
        have := (hd1 _ h).1
        exact absurd this (by decide)
      · refine ⟨by intro h; exact absurd (List.append_eq_nil_iff.1 h).2 (by decide), ?_⟩
        rw [List.mem_append, not_or]
        refine ⟨fun h => ?_, by decide⟩
        have := List.eq_of_mem_replicate h
        exact absurd this (by decide)
    · exact h3 f hf
  rw [fieldLines_hit _ _ _ hfl (by
    have := flatten_len (seenFields r fields)
    rw [List.length_append]; omega)]
  simp only [Option.bind_some]
  have hcl : contentLength (seenFields r fields) = some r.body.length := by
    unfold seenFields
    rw [hd]
    show contentLength (str "Connection: keep-alive" :: (str "Content-Length: " ++ d) :: _) = _
    rw [contentLength_hit d _ hd0 hd1, hd2]
  rw [hcl]
  simp only [Option.bind_some]
  rw [if_neg (by simp), List.take_left, List.drop_left, show (9 : Nat) = (str "HTTP/1.1 ").length by decide, List.drop_left]

/-- **C39** However many responses are written one after the other, the client reads exactly those. -/
theorem responses_read (rs : List (Response × List Str)) (h : ∀ x ∈ rs, Sound x.1 x.2 ∧ x.1.body.length ≤ 999999999) :
    ∃ out, (rs.map (·.1)).foldlM respond [] = some out ∧
      readAll rs.length out = some (rs.map fun x => ⟨x.1.status, seenFields x.1 x.2, x.1.body⟩) := by
  have fold : ∀ (rs : List (Response × List Str)) (out : Str), (∀ x ∈ rs, Sound x.1 x.2 ∧ x.1.body.length ≤ 999999999) →
      (rs.map (·.1)).foldlM respond out = some (out ++ (rs.map fun x => text x.1).flatten) := by
    intro rs
    induction rs with
    | nil => intro out _; simp
    | cons x rs ih =>
      intro out h
      obtain ⟨h1, h2⟩ := h x (List.mem_cons_self ..)
      rw [List.map_cons, List.foldlM_cons, respond_spec out x.1 x.2 h1 h2]
      show List.foldlM respond (out ++ text x.1) _ = _
      rw [ih _ fun y hy => h y (List.mem_cons_of_mem _ hy), List.map_cons, List.flatten_cons, List.append_assoc]
  refine ⟨_, fold rs [] h, ?_⟩
  rw [List.nil_append]
  induction rs with
  | nil => rfl
  | cons x rs ih =>
    obtain ⟨h1, h2⟩ := h x (List.mem_cons_self ..)
    rw [List.map_cons, List.flatten_cons, List.length_cons, readAll, if_neg, response_read x.1 x.2 h1 h2]
    · simp only [Option.bind_some]
      rw [ih fun y hy => h y (List.mem_cons_of_mem _ hy)]
      rfl
    · intro hn
      have := congrArg List.length hn
      unfold text at this
      have h9 : (str "HTTP/1.1 ").length = 9 := by decide
      simp only [List.length_append, h9, List.length_nil] at this
      omega

/-- Beyond that size the length is not written: the client takes the body for empty, and its bytes for what follows. -/
theorem huge_body (r : Response) (fields : List Str) (hs : Sound r fields) (hb : 999999999 < r.body.length) : ∃ out fs,
    respond [] r = some out ∧ readResponse out = some (⟨r.status, fs, []⟩, r.body) := by
  unfold respond
  dsimp only
  rw [if_neg (ends_ok r fields hs)]
  rw [len_sub, if_neg (by omega)]
  obtain ⟨h1, h2, h3⟩ := hs
  refine ⟨_, [str "Connection: keep-alive", str "Content-Length: 0", str "XXXXXXXXX: X"] ++ fields, rfl, ?_⟩
  have htext : [] ++ str "HTTP/1.1 " ++ r.status ++ str "\r\n" ++ str "Connection: keep-alive\r\n" ++ str "Content-Length: " ++ str "0\r\n" ++
      str "XXXXXXXXX: X\r\n" ++ r.headers ++ str "\r\n" ++ r.body = (str "HTTP/1.1 " ++ r.status) ++ (CRLF ++ ((([str "Connection: keep-alive",
      str "Content-Length: 0", str "XXXXXXXXX: X"] ++ fields).map fun f => f ++ CRLF).flatten ++ (CRLF ++ r.body))) := by
    rw [h2, show str "Connection: keep-alive\r\n" = str "Connection: keep-alive" ++ CRLF by decide,
      show str "Content-Length: 0" = str "Content-Length: " ++ str "0" by decide, show str "0\r\n" = str "0" ++ CRLF by decide,
      show str "XXXXXXXXX: X\r\n" = str "XXXXXXXXX: X" ++ CRLF by decide, crlf_eq]
    simp only [List.map_append, List.map_cons, List.map_nil, List.flatten_append, List.flatten_cons, List.flatten_nil, List.append_assoc, List.append_nil,
      List.nil_append]
  unfold readResponse
  rw [htext, cutLine_hit _ _ (by
    rw [List.mem_append, not_or]
    exact ⟨by decide, h1⟩)]
  simp only [Option.bind_some]
  have hp : (str "HTTP/1.1 ").isPrefixOf (str "HTTP/1.1 " ++ r.status) = true := by
    rw [List.isPrefixOf_iff_prefix]; exact List.prefix_append _ _
  rw [if_neg (by rw [hp]; simp)]
  rw [fieldLines_hit _ _ _ (by
    intro f hf
    rcases List.mem_append.1 hf with hf | hf
    · have H : ∀ f ∈ [str "Connection: keep-alive", str "Content-Length: 0", str "XXXXXXXXX: X"], f ≠ [] ∧ ¬ 13#8 ∈ f := by decide
      exact H f hf
    · exact h3 f hf) (by
    have := flatten_len ([str "Connection: keep-alive", str "Content-Length: 0", str "XXXXXXXXX: X"] ++ fields)
    have hl : ∀ (a b : Str), (a ++ b).length = a.length + b.length := fun a b => List.length_append
    rw [hl]; omega)]
  simp only [Option.bind_some]
  have hcl : contentLength ([str "Connection: keep-alive", str "Content-Length: 0", str "XXXXXXXXX: X"] ++ fields) = some 0 := by
    have := contentLength_hit (str "0") ([str "XXXXXXXXX: X"] ++ fields) (by decide) (by
      intro b hb
      have : b = 48#8 := by simpa [str, ch] using hb
      rw [this]; exact ⟨by decide, by decide⟩)
    rw [show str "Content-Length: " ++ str "0" = str "Content-Length: 0" by decide] at this
    exact this
  rw [hcl]
  simp only [Option.bind_some]
  rw [if_neg (by omega), List.take_zero, List.drop_zero, show (9 : Nat) = (str "HTTP/1.1 ").length by decide, List.drop_left]

/-! ### C67: what goes out -/

/-- what still has to go out -/
def pending (c : Conn) : Str :=
  match c.out with
  | none => []
  | some (cursor, data) => data.drop cursor

/-- what the arrival of a chunk makes the server say: the answers to the request, or why it is refused -/
def said (answer : Request → List Response) (c : Conn) (chunk : Str) : Option Str :=
  (tryParseRequest { c.buf with data := c.buf.data ++ chunk } c.buf.data.length chunk.length).bind fun (_, o) =>
    match o with
    | .fatal e => some (fatalText e)
    | .success r => (answer r).foldlM respond []

/-- what happens to a connection -/
inductive Ev where
  | read (chunk : Str)
  | write (a : Fd.Ans)

/-- one event; alongside, all that the server has said so far -/
def event (answer : Request → List Response) (s : Conn × Str) : Ev → Option (Conn × Str)
  | .read chunk => (onRead answer s.1 chunk).bind fun c => (said answer s.1 chunk).map fun t => (c, s.2 ++ t)
  | .write a => (onWrite s.1 a).map fun c => (c, s.2)

/-- the system takes some of the bytes, or asks to try again later -/
def Soft : Ev → Prop
  | .read _ => True
  | .write a => a = .fail Fd.EAGAIN ∨ ∃ n, a = .count n

theorem respond_append (out : Str) (r : Response) : respond out r = (respond [] r).map fun t => out ++ t := by
  unfold respond
  dsimp only
  by_cases h : r.headers ≠ [] ∧ ends r.headers (.many (str "\r\n")) ≠ some true
  · rw [if_pos h, if_pos h]; rfl
  · rw [if_neg h, if_neg h]
    rw [len_sub, len_sub]
    by_cases hb : r.body.length ≤ 999999999
    · rw [if_pos hb, if_pos hb]
      generalize hx : Decstr.i64dec (BitVec.ofNat 64 r.body.length) ++ str "\r\n" = x
      generalize hA : str "HTTP/1.1 " ++ r.status ++ str "\r\n" ++ str "Connection: keep-alive\r\n" ++ str "Content-Length: " = A
      generalize hB : str "0\r\n" ++ str "XXXXXXXXX: X\r\n" ++ r.headers ++ str "\r\n" ++ r.body = B
      have e1 : out ++ str "HTTP/1.1 " ++ r.status ++ str "\r\n" ++ str "Connection: keep-alive\r\n" ++ str "Content-Length: " = out ++ A := by
        rw [← hA]; simp only [List.append_assoc]
      have e2 : out ++ A ++ str "0\r\n" ++ str "XXXXXXXXX: X\r\n" ++ r.headers ++ str "\r\n" ++ r.body = out ++ (A ++ B) := by
        rw [← hB]; simp only [List.append_assoc]
      have e3 : [] ++ str "HTTP/1.1 " ++ r.status ++ str "\r\n" ++ str "Connection: keep-alive\r\n" ++ str "Content-Length: " = A := by
        rw [← hA]; simp only [List.append_assoc, List.nil_append]
      have e4 : A ++ str "0\r\n" ++ str "XXXXXXXXX: X\r\n" ++ r.headers ++ str "\r\n" ++ r.body = A ++ B := by
        rw [← hB]; simp only [List.append_assoc]
      rw [e1, e2, e3, e4]
      unfold blit
      have hl : ∀ (a b : Str), (a ++ b).length = a.length + b.length := fun a b => List.length_append
      rw [hl out A, hl out (A ++ B)]
      by_cases hl : A.length + x.length ≤ (A ++ B).length
      · rw [if_pos hl, if_pos (by omega)]
        simp only [Option.map_some]
        congr 1
        rw [List.take_append, List.take_of_length_le (by omega), show out.length + A.length - out.length = A.length by omega,
          List.drop_append, List.drop_of_length_le (by omega), show out.length + A.length + x.length - out.length = A.length + x.length by omega]
        simp only [List.append_assoc, List.nil_append]
      · rw [if_neg hl, if_neg (by omega)]; rfl
    · rw [if_neg hb, if_neg hb]
      simp only [Option.map_some, List.append_assoc, List.nil_append]

theorem foldlM_append (rs : List Response) : ∀ (out : Str), rs.foldlM respond out = (rs.foldlM respond []).map fun t => out ++ t := by
  induction rs with
  | nil => intro out; simp
  | cons r rs ih =>
    intro out
    rw [List.foldlM_cons, List.foldlM_cons, respond_append out r]
    cases respond [] r with
    | none => rfl
    | some t =>
      simp only [Option.map_some, Option.bind_eq_bind, Option.bind_some]
      rw [ih (out ++ t), ih t]
      cases List.foldlM respond [] rs with
      | none => rfl
      | some u => simp only [Option.map_some, List.append_assoc]

/-- what holds of a connection all along -/
def Ok (s : Conn × Str) : Prop :=
  s.1.sent ++ pending s.1 = s.2 ∧ ∀ cursor data, s.1.out = some (cursor, data) → cursor ≤ data.length

theorem event_ok (answer : Request → List Response) (s s' : Conn × Str) (ev : Ev) (h : Ok s) (hs : Soft ev) (e : event answer s ev = some s') : Ok s' := by
  obtain ⟨c, made⟩ := s
  obtain ⟨h1, h2⟩ := h
  simp only at h1 h2
  cases ev with
  | read chunk =>
    unfold event onRead said at e
    dsimp only at e
    cases hp : tryParseRequest { c.buf with data := c.buf.data ++ chunk } c.buf.data.length chunk.length with
    | none => rw [hp] at e; cases e
    | some p =>
      obtain ⟨buf, o⟩ := p
      rw [hp] at e
      simp only [Option.bind_some] at e
      have app : ∀ (t : Str) (c' : Conn), c'.sent = c.sent → c'.out = some ((c.out.getD (0, [])).1, (c.out.getD (0, [])).2 ++ t) → Ok (c', made ++ t) := by
        intro t c' hs' ho
        unfold Ok pending
        simp only [ho, hs']
        have hcur : (c.out.getD (0, [])).1 ≤ (c.out.getD (0, [])).2.length := by
          cases hc : c.out with
          | none => simp
          | some x => obtain ⟨a, b⟩ := x; exact h2 a b hc
        have hpen : pending c = (c.out.getD (0, [])).2.drop (c.out.getD (0, [])).1 := by
          unfold pending
          cases hc : c.out with
          | none => rfl
          | some x => rfl
        refine ⟨?_, ?_⟩
        · rw [List.drop_append_of_le_length hcur, ← List.append_assoc, ← hpen, h1]
        · intro cursor data hcd
          cases hcd
          rw [List.length_append]; omega
      cases o with
      | fatal er =>
        simp only [Option.bind_some, Option.map_some, Option.some.injEq] at e
        subst e
        exact app (fatalText er) _ rfl rfl
      | success r =>
        simp only at e
        cases ha : answer r with
        | nil =>
          rw [ha] at e
          simp only [Option.bind_some, List.foldlM_nil, Option.pure_def, Option.map_some, Option.some.injEq, List.append_nil] at e
          subst e
          exact ⟨h1, h2⟩
        | cons x xs =>
          rw [ha] at e
          simp only at e
          rw [foldlM_append (x :: xs) (c.out.getD (0, [])).2] at e
          cases hf : List.foldlM respond [] (x :: xs) with
          | none => rw [hf] at e; cases e
          | some t =>
            rw [hf] at e
            simp only [Option.map_some, Option.bind_some, Option.some.injEq] at e
            subst e
            exact app t _ rfl rfl
  | write a =>
    unfold event onWrite at e
    dsimp only at e
    cases hc : c.out with
    | none =>
      rw [hc] at e
      simp only [Option.map_some, Option.some.injEq] at e
      subst e
      exact ⟨h1, h2⟩
    | some x =>
      obtain ⟨cursor, data⟩ := x
      have hcur := h2 cursor data hc
      have hpen : pending c = data.drop cursor := by unfold pending; rw [hc]
      rw [hc] at e
      dsimp only at e
      rw [window_ok data cursor data.length hcur (Nat.le_refl _), List.take_length] at e
      simp only [Option.bind_some] at e
      rcases hs with rfl | ⟨n, rfl⟩
      · unfold Fd.fdWrite at e
        dsimp only at e
        by_cases hz : 0 < (data.drop cursor).length
        · rw [if_pos ⟨if_pos rfl, hz⟩, if_pos (by rw [List.length_drop] at hz; omega)] at e
          simp only [Option.map_some, Option.some.injEq, Nat.add_zero, List.append_nil] at e
          subst e
          refine ⟨?_, ?_⟩
          · show c.sent ++ data.drop cursor = made
            rw [← hpen]; exact h1
          · intro a b hab
            cases hab
            exact hcur
        · rw [if_neg (by intro hh; exact hz hh.2)] at e
          simp only [Option.map_some, Option.some.injEq, List.append_nil] at e
          subst e
          refine ⟨?_, by intro a b hab; cases hab⟩
          show c.sent ++ [] = made
          have : data.drop cursor = [] := List.length_eq_zero_iff.1 (by omega)
          rw [hpen, this] at h1
          exact h1
      · unfold Fd.fdWrite at e
        dsimp only at e
        rw [show (if (0 : Int) = Fd.EAGAIN then (0 : Int) else 0) = 0 by decide] at e
        by_cases hz : min n (data.drop cursor).length < (data.drop cursor).length
        · rw [if_pos ⟨rfl, hz⟩, if_pos (by rw [List.length_drop] at hz ⊢; omega)] at e
          simp only [Option.map_some, Option.some.injEq] at e
          subst e
          refine ⟨?_, ?_⟩
          · show c.sent ++ (data.drop cursor).take n ++ data.drop (cursor + min n (data.drop cursor).length) = made
            rw [show min n (data.drop cursor).length = n by omega, ← List.drop_drop, List.append_assoc, List.take_append_drop, ← hpen, h1]
          · intro a b hab
            cases hab
            rw [List.length_drop] at hz ⊢
            omega
        · rw [if_neg (by intro hh; exact hz hh.2)] at e
          simp only [Option.map_some, Option.some.injEq] at e
          subst e
          refine ⟨?_, by intro a b hab; cases hab⟩
          show c.sent ++ (data.drop cursor).take n ++ [] = made
          rw [List.append_nil, List.take_of_length_le (by omega), ← hpen, h1]

/-- **C67** Whatever arrives and however the system splits the writes, what has gone out followed by what still has to go out
is exactly what the server has said so far: nothing is lost, repeated or reordered. -/
theorem output_exact (answer : Request → List Response) (evs : List Ev) (hs : ∀ ev ∈ evs, Soft ev) (c : Conn) (made : Str)
    (e : evs.foldlM (event answer) (fresh, []) = some (c, made)) : c.sent ++ pending c = made := by
  have main : ∀ (evs : List Ev) (s : Conn × Str), Ok s → (∀ ev ∈ evs, Soft ev) → ∀ s', evs.foldlM (event answer) s = some s' → Ok s' := by
    intro evs
    induction evs with
    | nil => intro s h _ s' e; simp at e; subst e; exact h
    | cons ev evs ih =>
      intro s h hsoft s' e
      rw [List.foldlM_cons] at e
      cases h1 : event answer s ev with
      | none => rw [h1] at e; cases e
      | some s1 =>
        rw [h1] at e
        exact ih s1 (event_ok answer s s1 ev h (hsoft ev (List.mem_cons_self ..)) h1) (fun x hx => hsoft x (List.mem_cons_of_mem _ hx)) s' e
  exact (main evs (fresh, []) ⟨rfl, by intro a b h; cases h⟩ hs (c, made) e).1

/-- **C67** Writing never fails an assertion, and once the system takes everything offered nothing is pending. -/
theorem write_ok (answer : Request → List Response) (evs : List Ev) (hs : ∀ ev ∈ evs, Soft ev) (c : Conn) (made : Str)
    (e : evs.foldlM (event answer) (fresh, []) = some (c, made)) (a : Fd.Ans) :
    ∃ c', onWrite c a = some c' ∧ (∀ n, a = .count n → (pending c).length ≤ n → c'.sent = made ∧ pending c' = []) := by
  have main : ∀ (evs : List Ev) (s : Conn × Str), Ok s → (∀ ev ∈ evs, Soft ev) → ∀ s', evs.foldlM (event answer) s = some s' → Ok s' := by
    intro evs
    induction evs with
    | nil => intro s h _ s' e; simp at e; subst e; exact h
    | cons ev evs ih =>
      intro s h hsoft s' e
      rw [List.foldlM_cons] at e
      cases h1 : event answer s ev with
      | none => rw [h1] at e; cases e
      | some s1 =>
        rw [h1] at e
        exact ih s1 (event_ok answer s s1 ev h (hsoft ev (List.mem_cons_self ..)) h1) (fun x hx => hsoft x (List.mem_cons_of_mem _ hx)) s' e
  obtain ⟨h1, h2⟩ := main evs (fresh, []) ⟨rfl, by intro a b h; cases h⟩ hs (c, made) e
  simp only at h1 h2
  unfold onWrite
  cases hc : c.out with
  | none =>
    refine ⟨c, rfl, fun n _ _ => ?_⟩
    have : pending c = [] := by unfold pending; rw [hc]
    rw [this, List.append_nil] at h1
    exact ⟨h1, this⟩
  | some x =>
    obtain ⟨cursor, data⟩ := x
    have hcur := h2 cursor data hc
    have hpen : pending c = data.drop cursor := by unfold pending; rw [hc]
    dsimp only
    rw [window_ok data cursor data.length hcur (Nat.le_refl _), List.take_length]
    simp only [Option.bind_some]
    cases a with
    | fail er =>
      unfold Fd.fdWrite
      dsimp only
      by_cases hz : (if er = Fd.EAGAIN then 0 else er) = 0 ∧ 0 < (data.drop cursor).length
      · rw [if_pos hz, if_pos (by have := hz.2; rw [List.length_drop] at this; omega)]
        exact ⟨_, rfl, by intro n h; cases h⟩
      · rw [if_neg hz]
        exact ⟨_, rfl, by intro n h; cases h⟩
    | count n =>
      unfold Fd.fdWrite
      dsimp only
      rw [show (if (0 : Int) = Fd.EAGAIN then (0 : Int) else 0) = 0 by decide]
      by_cases hz : min n (data.drop cursor).length < (data.drop cursor).length
      · rw [if_pos ⟨rfl, hz⟩, if_pos (by rw [List.length_drop] at hz ⊢; omega)]
        refine ⟨_, rfl, ?_⟩
        intro m hm hle
        cases hm
        rw [hpen] at hle; omega
      · rw [if_neg (by intro hh; exact hz hh.2)]
        refine ⟨_, rfl, ?_⟩
        intro m hm hle
        cases hm
        refine ⟨?_, rfl⟩
        show c.sent ++ (data.drop cursor).take n = made
        rw [List.take_of_length_le (by omega), ← hpen, h1]

/-! non-vacuity -/
example : Sound ⟨str "200 OK", str "Server: fu\r\nDate: now\r\n", str "hello"⟩ [str "Server: fu", str "Date: now"] :=
  ⟨by decide, by decide, by decide⟩
example : respond [] ⟨str "200 OK", [], str "hello world!"⟩ =
    some (str "HTTP/1.1 200 OK\r\nConnection: keep-alive\r\nContent-Length: 12\r\nXXXXXXXX: X\r\n\r\nhello world!") := by
  rw [respond_spec [] _ [] ⟨by decide, rfl, by simp⟩ (by decide)]
  unfold text
  rw [show Decstr.i64dec (BitVec.ofNat 64 (str "hello world!").length) = str "12" by
    rw [show (str "hello world!").length = 12 by decide]
    simp [Decstr.i64dec, Decstr.u64dec, Decstr.u64decLoop, str, ch]]
  decide

end Verif.Http

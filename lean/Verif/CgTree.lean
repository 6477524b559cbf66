import Verif.CgExpr
import Verif.CppGram

/-!
# C92: how C++ groups what the emitter writes

`tr` is the tree the text of an expression is meant to be; `cg_reads` is the proof that C++ reads
exactly this tree in the text, for every expression of the shape `shape`: a field is not taken of what
starts with a prefix operator, a sign does not stand in front of the same sign.
-/

namespace Verif.CgTree

open Verif.CgText Verif.CgExpr Verif.CppGram

/-! ## The shape -/

/-- The copy is not written (src/codegen.fu 3550-3552, 3719-3727). -/
def omits (m : Mode) (t : Ty) : Bool := (m.ret && prim t) || skipsCopy m t

/-- Can a suffix be put behind the text of the node as it is? -/
def suffixable (m : Mode) : N → Bool
  | .un t _ e => prim e.ty && t = .u8
  | .pre _ _ _ => false
  | .not _ => false
  | .copy t e => !omits m t || suffixable {} e
  | _ => true

/-- The prefix operator the text starts with, if it does. -/
def lead (m : Mode) : N → Option Op
  | .un t o e => if prim e.ty && t = .u8 then none else some o.op
  | .pre _ d _ => some (incOp d)
  | .not _ => some .bang
  | .copy t e => if omits m t then lead {} e else none
  | _ => none

/-- Would the operator and the start of the operand be read as one token? -/
def clash : UOp → Option Op → Bool
  | .neg, some .minus | .neg, some .dec | .pos, some .plus | .pos, some .inc => true
  | _, _ => false

mutual
/-- The shape of the expressions that are read back as they were meant: no field of an expression that
starts with a prefix operator, no sign in front of the same sign; `&&` and `||` have operands. -/
def shape : N → Bool
  | .var _ _ | .num _ _ | .flag _ | .pre _ _ _ | .post _ _ _ => true
  | .fld _ e _ => shape e && suffixable argMode e
  | .call _ _ _ args => shapeL args
  | .un _ o e => shape e && !clash o (lead argMode e)
  | .bin _ _ _ a b => shape a && shape b
  | .asg _ _ _ e | .not e | .copy _ e => shape e
  | .ite _ c a b => shape c && shape a && shape b
  | .and _ items | .or _ items => decide (2 ≤ items.length) && shapeL items
def shapeL : List N → Bool
  | [] => true
  | e :: r => shape e && shapeL r
end

/-! ## The tree -/

def castC (t : Ty) (c : C) : C := .call (.w (.ty t)) [c]
def copyC (m : Mode) (t : Ty) (c : C) : C := if skipsCopy m t then c else castC t c
def copyNodeC (m : Mode) (t : Ty) (c : C) : C := if m.ret && prim t then c else copyC m t c
def moveC (m : Mode) (t : Ty) (c : C) : C := if prim t then copyC m t c else .call (.w (.mv t)) [c]
def consumeC (m : Mode) (t : Ty) (id : Nat) : C := moveC m t (.w (.tmp id))
def initC (id : Nat) (c : C) : C := .asg .asg (.w (.tmp id)) c
def unpromoteC (native : Bool) (t : Ty) (c : C) : C := if native && t = .u8 then castC t c else c
def asBoolC (t tb : Ty) (c : C) : C := if t = .bool && tb ≠ .bool then .un .bang (.un .bang c) else c

def chainC : N → C
  | .var _ x => .w (.var x)
  | .fld _ e f => .fld (chainC e) (.fld f)
  | _ => .w .fals

/-- Assignments to temporaries, and then the call. -/
def ooeC : List C → C → C
  | [], c => c
  | h :: r, c => (r ++ [c]).foldl .comma h

/-- `a o b o c`, grouped from the left. -/
def joinC (o : Op) : List C → C
  | [] => .w .fals
  | c :: r => r.foldl (.bin o) c

/-- The condition and the value of `via`. -/
def viaC (m : Mode) (t : Ty) (tv : Option Nat) (x : N) (c : C) (k : Nat) : C × C :=
  if chain x then (c, c)
  else
    match x with
    | .copy t' e =>
        if chain e then (chainC e, copyNodeC m t' (chainC e))
        else (initC (tv.getD k) c, consumeC m t (tv.getD k))
    | _ => (initC (tv.getD k) c, consumeC m t (tv.getD k))

mutual
def tr (m : Mode) : N → Nat → C
  | .var _ x, _ => .w (.var x)
  | .num t n, _ => if t = .u8 then castC t (.w (.num n)) else .w (.num n)
  | .flag b, _ => .w (if b then .tru else .fals)
  | .fld _ e f, k => .fld (tr argMode e k) (.fld f)
  | .call _ f mask args, k => ooeC (trArgs mask 0 args k).1 (.call (.w (.fn f)) (trArgs mask 0 args k).2)
  | .un t o e, k => unpromoteC (prim e.ty) t (.un o.op (tr argMode e k))
  | .bin t o mask a b, k =>
      let ra := cg argMode a k
      let ha := held mask 0 a [b]
      let kb := if ha then ra.2 + 1 else ra.2
      let rb := cg argMode b kb
      let hb := held mask 1 b []
      let hdr := (if ha then [initC ra.2 (tr argMode a k)] else []) ++
                 (if hb then [initC rb.2 (tr argMode b kb)] else [])
      let c := C.bin o.op (if ha then consumeC argMode a.ty ra.2 else tr argMode a k)
                 (if hb then consumeC argMode b.ty rb.2 else tr argMode b kb)
      if skipParens m o && hdr.isEmpty then c else ooeC hdr (unpromoteC (prim a.ty) t c)
  | .asg _ o x e, k => .asg o.op (.w (.var x)) (tr { abAll := true } e k)
  | .pre _ d x, _ => .un (incOp d) (.w (.var x))
  | .post t d x, _ => unpromoteC true t (.post (incOp d) (.w (.var x)))
  | .not e, k => .un .bang (tr {} e k)
  | .ite t c a b, k =>
      let kc := (cg {} c k).2
      let ka := (cg m.pass a kc).2
      .cond (tr {} c k) (asBoolC t a.ty (tr m.pass a kc)) (asBoolC t b.ty (tr m.pass b ka))
  | .and t items, k =>
      if t = .bool then joinC .andand (trL { parens := items.length == 1 } items k)
      else trAndV t none items k
  | .or t items, k =>
      if t = .bool then joinC .oror (trL { parens := items.length == 1 } items k)
      else trOrV m.pass t none items k
  | .copy t e, k => copyNodeC m t (tr {} e k)

def trArgs (mask : Nat) : Nat → List N → Nat → List C × List C
  | _, [], _ => ([], [])
  | i, a :: rest, k =>
      let r := cg argMode a k
      if held mask i a rest then
        let q := trArgs mask (i + 1) rest (r.2 + 1)
        (initC r.2 (tr argMode a k) :: q.1, consumeC argMode a.ty r.2 :: q.2)
      else
        let q := trArgs mask (i + 1) rest r.2
        (q.1, tr argMode a k :: q.2)

def trL (m : Mode) : List N → Nat → List C
  | [], _ => []
  | x :: r, k => tr m x k :: trL m r (cg m x k).2

def trAndV (t : Ty) : Option Nat → List N → Nat → C
  | _, [], _ => .w .fals
  | _, [x], k => tr {} x k
  | tv, x :: y :: r, k =>
      let p := cg {} x k
      let v := via {} t tv x p.1 p.2
      let c := viaC {} t tv x (tr {} x k) p.2
      .cond (.un .bang c.1) c.2 (trAndV t v.2.1 (y :: r) v.2.2)

def trOrV (m : Mode) (t : Ty) : Option Nat → List N → Nat → C
  | _, [], _ => .w .fals
  | _, [x], k => tr m x k
  | tv, .and _ its :: y :: r, k =>
      let v := cgAndVia m t tv its k
      let c := trAndVia m t tv its k
      .cond (joinC .andand c.1) c.2 (trOrV m t v.2.1 (y :: r) v.2.2)
  | tv, x :: y :: r, k =>
      let p := cg {} x k
      let v := via m t tv x p.1 p.2
      let c := viaC m t tv x (tr {} x k) p.2
      .cond c.1 c.2 (trOrV m t v.2.1 (y :: r) v.2.2)

/-- The conditions, and the value. -/
def trAndVia (m : Mode) (t : Ty) (tv : Option Nat) : List N → Nat → List C × C
  | [], _ => ([], .w .fals)
  | [x], k =>
      let c := viaC m t tv x (tr {} x k) (cg {} x k).2
      ([c.1], c.2)
  | x :: y :: r, k =>
      let c := trAndVia m t tv (y :: r) (cg {} x k).2
      (tr {} x k :: c.1, c.2)
end

/-! ## Texts that fit together -/

/-- A piece an expression starts with. -/
def startOk : Piece → Bool
  | .w _ => true
  | .op o => o = .lpar || isPrefix o
  | .sp => false

/-- A piece an expression ends with. -/
def endOk : Piece → Bool
  | .w _ => true
  | .op o => o = .rpar || o = .inc || o = .dec
  | .sp => false

/-- A text that can stand in a text. -/
structure Good (s : Text) : Prop where
  fine : Fine s = true
  hd : ∃ p, s.head? = some p ∧ startOk p = true
  tl : ∃ p, s.getLast? = some p ∧ endOk p = true

theorem Good.ne {s : Text} (h : Good s) : s ≠ [] := by
  rintro rfl; obtain ⟨p, hp, _⟩ := h.hd; cases hp

theorem head_append {a b : Text} (h : a ≠ []) : (a ++ b).head? = a.head? := by
  cases a with | nil => exact absurd rfl h | cons x a => rfl

theorem last_append {a b : Text} (h : b ≠ []) : (a ++ b).getLast? = b.getLast? := by
  cases b with
  | nil => exact absurd rfl h
  | cons x b => simp [List.getLast?_append, List.getLast?_cons]

theorem good_nm (a : Word) : Good (nm a) := ⟨rfl, ⟨_, rfl, rfl⟩, ⟨_, rfl, rfl⟩⟩

/-- the tokens that can follow whatever an expression ends with -/
def follows (o : Op) : Bool := o = .rpar || o = .comma || o = .dot || o = .lpar

theorem next_end {p : Piece} (hp : endOk p = true) {o : Op} (ho : follows o = true) : Next p (.op o) = true := by
  cases p with
  | sp => rfl
  | w a => rfl
  | op q =>
      cases q <;> first | (exact absurd hp (by decide)) | (cases o <;> first | (exact absurd ho (by decide)) | rfl)

theorem next_lpar {p : Piece} (hp : startOk p = true) : Next (.op .lpar) p = true := by
  cases p with
  | sp => rfl
  | w a => rfl
  | op q => cases q <;> first | rfl | exact absurd hp (by decide)

theorem next_bang {p : Piece} (hp : startOk p = true) : Next (.op .bang) p = true := by
  cases p with
  | sp => rfl
  | w a => rfl
  | op q => cases q <;> first | rfl | exact absurd hp (by decide)

theorem good_paren_of {s : Text} (hf : Fine s = true) (hh : ∃ p, s.head? = some p ∧ startOk p = true)
    (hl : ∃ p, s.getLast? = some p ∧ endOk p = true) : Good (paren s) := by
  obtain ⟨p, hp, hp'⟩ := hh
  obtain ⟨q, hq, hq'⟩ := hl
  have hne : s ≠ [] := by rintro rfl; cases hp
  refine ⟨?_, ⟨_, rfl, rfl⟩, ⟨.op .rpar, by rw [paren, last_append (by simp [op])]; rfl, rfl⟩⟩
  refine fine_append (fine_append rfl hf ?_) rfl ?_
  · intro a b ha hb
    cases ha
    rw [hp] at hb; cases hb
    exact next_lpar hp'
  · intro a b ha hb
    cases hb
    rw [last_append hne, hq] at ha; cases ha
    exact next_end hq' rfl

theorem good_paren {s : Text} (h : Good s) : Good (paren s) := good_paren_of h.fine h.hd h.tl

theorem good_name_paren {s : Text} (a : Word) (h : Good (paren s)) : Good (nm a ++ paren s) := by
  refine ⟨fine_append rfl h.fine ?_, ⟨_, rfl, rfl⟩, ?_⟩
  · intro x y hx hy
    cases hx; cases hy; rfl
  · obtain ⟨p, hp, hp'⟩ := h.tl
    exact ⟨p, by rw [last_append h.ne]; exact hp, hp'⟩

theorem good_cast {s : Text} (t : Ty) (h : Good s) : Good (cast t s) := good_name_paren _ (good_paren h)

theorem fine_sop (o : Op) : Fine (sop o) = true := by cases o <;> rfl

theorem next_sp (p : Piece) : Next p .sp = true := by cases p <;> rfl
theorem sp_next (p : Piece) : Next .sp p = true := by cases p <;> rfl

theorem good_sop {a b : Text} (o : Op) (ha : Good a) (hb : Good b) : Good (a ++ sop o ++ b) := by
  refine ⟨fine_append (fine_append ha.fine (fine_sop o) ?_) hb.fine ?_, ?_, ?_⟩
  · intro x y _ hy
    cases hy; exact next_sp x
  · intro x y hx _
    rw [last_append (by simp [sop])] at hx
    cases hx; exact sp_next y
  · obtain ⟨p, hp, hp'⟩ := ha.hd
    exact ⟨p, by rw [List.append_assoc, head_append ha.ne]; exact hp, hp'⟩
  · obtain ⟨p, hp, hp'⟩ := hb.tl
    exact ⟨p, by rw [last_append hb.ne]; exact hp, hp'⟩

theorem good_prefix {s : Text} (o : Op) (ho : isPrefix o = true) (h : Good s)
    (hn : ∀ p, s.head? = some p → Next (.op o) p = true) : Good (op o ++ s) := by
  refine ⟨fine_append rfl h.fine ?_, ⟨.op o, rfl, ?_⟩, ?_⟩
  · intro x y hx hy
    cases hx; exact hn y hy
  · simp [startOk, ho]
  · obtain ⟨p, hp, hp'⟩ := h.tl
    exact ⟨p, by rw [last_append h.ne]; exact hp, hp'⟩

theorem good_bang {s : Text} (h : Good s) : Good (op .bang ++ s) :=
  good_prefix .bang rfl h (fun p hp => by
    obtain ⟨q, hq, hq'⟩ := h.hd
    rw [hq] at hp; cases hp
    exact next_bang hq')

theorem good_dot {s : Text} (f : Word) (h : Good s) : Good (s ++ op .dot ++ nm f) := by
  refine ⟨fine_append (fine_append h.fine rfl ?_) rfl ?_, ?_, ⟨.w f, by rw [last_append (by simp [nm])]; rfl, rfl⟩⟩
  · intro x y hx hy
    cases hy
    obtain ⟨p, hp, hp'⟩ := h.tl
    rw [hp] at hx; cases hx
    exact next_end hp' rfl
  · intro x y hx hy
    rw [last_append (by simp [op])] at hx
    cases hx; cases hy; rfl
  · obtain ⟨p, hp, hp'⟩ := h.hd
    exact ⟨p, by rw [List.append_assoc, head_append h.ne]; exact hp, hp'⟩

theorem good_post (x : Word) (d : Bool) : Good (nm x ++ op (incOp d)) := by
  cases d <;> exact ⟨rfl, ⟨_, rfl, rfl⟩, ⟨_, rfl, rfl⟩⟩

theorem good_comma {a b : Text} (ha : Good a) (hb : Good b) : Good (a ++ [.op .comma, .sp] ++ b) := by
  refine ⟨fine_append (fine_append ha.fine rfl ?_) hb.fine ?_, ?_, ?_⟩
  · intro x y hx hy
    cases hy
    obtain ⟨p, hp, hp'⟩ := ha.tl
    rw [hp] at hx; cases hx
    exact next_end hp' rfl
  · intro x y hx _
    rw [last_append (by simp)] at hx
    cases hx; exact sp_next y
  · obtain ⟨p, hp, hp'⟩ := ha.hd
    exact ⟨p, by rw [List.append_assoc, head_append ha.ne]; exact hp, hp'⟩
  · obtain ⟨p, hp, hp'⟩ := hb.tl
    exact ⟨p, by rw [last_append hb.ne]; exact hp, hp'⟩

theorem good_join : (l : List Text) → l ≠ [] → (∀ s ∈ l, Good s) → Good (commaJoin l)
  | [], h, _ => absurd rfl h
  | [s], _, h => h s (List.mem_singleton.2 rfl)
  | s :: s' :: r, _, h => by
      rw [commaJoin]
      exact good_comma (h s (List.mem_cons_self ..))
        (good_join (s' :: r) (by simp) (fun x hx => h x (List.mem_cons_of_mem _ hx)))

theorem good_paren_join (a : Word) (l : List Text) (h : ∀ s ∈ l, Good s) :
    Good (nm a ++ paren (commaJoin l)) := by
  cases l with
  | nil => exact ⟨rfl, ⟨_, rfl, rfl⟩, ⟨_, rfl, rfl⟩⟩
  | cons s r => exact good_name_paren a (good_paren (good_join _ (by simp) h))

theorem good_ooe {hdr : List Text} {s : Text} (hh : ∀ h ∈ hdr, Good h) (hs : Good s) : Good (ooeWrap hdr s) := by
  unfold ooeWrap
  cases hdr with
  | nil => exact hs
  | cons h r =>
      rw [if_neg (by simp)]
      exact good_paren (good_comma (good_join _ (by simp) hh) hs)

theorem good_test {a b c : Text} (ha : Good a) (hb : Good b) (hc : Good c) : Good (test a b ++ c) := by
  have h := good_sop .quest ha hb
  have h2 := good_sop .colon h hc
  simpa [test, List.append_assoc] using h2

/-! ## Texts that are read as a tree -/

/-- Read as the tree wherever a unary expression can stand. -/
def PU (s : Text) (c : C) : Prop :=
  ∀ rest, stopSuffix rest = true → Gets (fun n => unary n (toks s ++ rest)) (c, rest)
/-- Read as the tree, and whatever suffix follows is applied to it. -/
def PP (s : Text) (c : C) : Prop :=
  ∀ rest r, Gets (fun n => suffixes n c rest) r → Gets (fun n => unary n (toks s ++ rest)) r
/-- Read as the tree wherever an assignment can stand. -/
def PA (s : Text) (c : C) : Prop :=
  ∀ rest, stopAssign rest = true → Gets (fun n => assign n (toks s ++ rest)) (c, rest)
/-- Read as the tree wherever a binary expression can stand. -/
def PB (s : Text) (c : C) : Prop :=
  ∀ rest, stopBinary 0 rest = true → Gets (fun n => binary n 0 (toks s ++ rest)) (c, rest)

theorem PP.pu {s : Text} {c : C} (h : PP s c) : PU s c := fun rest hr =>
  h rest _ (suffixes_stop c rest hr)

theorem PU.pb {s : Text} {c : C} (h : PU s c) : PB s c := fun rest hr =>
  binary_unary 0 _ (h rest (stopBinary_suffix hr)) hr

theorem PB.pa {s : Text} {c : C} (h : PB s c) : PA s c := fun rest hr =>
  assign_of _ (h rest (stopAssign_binary hr)) (afterBinary_stop c rest hr)

theorem PU.pa {s : Text} {c : C} (h : PU s c) : PA s c := h.pb.pa

theorem pp_nm (a : Word) : PP (nm a) (.w a) := fun rest _ h => unary_word a rest h

theorem pp_paren {s : Text} {c : C} (h : PA s c) : PP (paren s) c := by
  intro rest r hr
  have e : toks (paren s) ++ rest = .op .lpar :: (toks s ++ .op .rpar :: rest) := by
    simp [paren, op, toks_append, toks]
  rw [e]
  exact unary_paren c _ rest (expr_assign _ (h _ rfl) rfl) hr

theorem toks_nm_paren (a : Word) (s : Text) (rest : List Tok) :
    toks (nm a ++ paren s) ++ rest = .w a :: .op .lpar :: (toks s ++ .op .rpar :: rest) := by
  simp [paren, op, nm, toks_append, toks]

/-- the start of a text is the start of an argument -/
theorem good_starts {s : Text} (h : Good s) (rest : List Tok) : startsAssign (toks s ++ rest) = true := by
  obtain ⟨p, hp, hp'⟩ := h.hd
  cases s with
  | nil => cases hp
  | cons q s =>
      have hq : q = p := by simpa using hp
      subst hq
      cases q with
      | sp => cases hp'
      | w a => rfl
      | op o => cases o <;> first | rfl | exact absurd hp' (by decide)

theorem pp_call1 {s : Text} {c : C} (a : Word) (hg : Good s) (h : PA s c) :
    PP (nm a ++ paren s) (.call (.w a) [c]) := by
  intro rest r hr
  rw [toks_nm_paren]
  refine unary_word a _ (suffixes_call _ _ (x := ([c], rest)) ?_ hr)
  exact arguments_some _ (good_starts hg _) (h _ rfl) (moreArguments_end rest)

theorem pp_cast {s : Text} {c : C} (t : Ty) (hg : Good s) (h : PA s c) : PP (cast t s) (castC t c) :=
  pp_call1 _ hg h

theorem pp_dot {s : Text} {c : C} (f : Word) (h : PP s c) : PP (s ++ op .dot ++ nm f) (.fld c f) := by
  intro rest r hr
  have e : toks (s ++ op .dot ++ nm f) ++ rest = toks s ++ (.op .dot :: .w f :: rest) := by
    simp [op, nm, toks_append, toks]
  rw [e]
  exact h _ _ (suffixes_dot c f rest hr)

theorem pu_prefix {s : Text} {c : C} (o : Op) (ho : isPrefix o = true) (h : PU s c) :
    PU (op o ++ s) (.un o c) := by
  intro rest hr
  exact unary_prefix o ho _ (h rest hr)

theorem pp_post (x : Word) (d : Bool) : PP (nm x ++ op (incOp d)) (.post (incOp d) (.w x)) := by
  intro rest r hr
  refine unary_word x _ (suffixes_post _ (incOp d) ?_ rest hr)
  cases d
  · exact Or.inl rfl
  · exact Or.inr rfl

theorem toks_sop (a b : Text) (o : Op) (rest : List Tok) :
    toks (a ++ sop o ++ b) ++ rest = toks a ++ (.op o :: (toks b ++ rest)) := by
  simp [sop, toks_append, toks]

theorem stop_level {o : Op} {q : Nat} (h : level o = some q) (rest : List Tok) : stopSuffix (.op o :: rest) = true := by
  cases o <;> first | rfl | cases h

theorem pb_bin {a b : Text} {ca cb : C} (o : Op) {q : Nat} (ho : level o = some q)
    (ha : PU a ca) (hb : PU b cb) : PB (a ++ sop o ++ b) (.bin o ca cb) := by
  intro rest hr
  rw [toks_sop]
  refine binary_of 0 _ (ha _ (stop_level ho _)) ?_
  refine operators_op 0 q ca o ho (Nat.zero_le _) _ (x := (cb, rest)) ?_ (operators_stop 0 _ rest hr)
  exact binary_unary _ _ (hb rest (stopBinary_suffix hr)) (stopBinary_mono (Nat.zero_le _) hr)

theorem pa_asg {b : Text} {cb : C} (x : Word) (o : Op) (ho : isAssign o = true) (hb : PA b cb) :
    PA (nm x ++ sop o ++ b) (.asg o (.w x) cb) := by
  intro rest hr
  rw [toks_sop]
  have hs : stopBinary 0 (.op o :: (toks b ++ rest)) = true := by
    cases o <;> first | rfl | exact absurd ho (by decide)
  refine assign_of _ (x := (.w x, .op o :: (toks b ++ rest))) ?_ (afterBinary_assign _ o ho _ (hb rest hr))
  exact (pp_nm x).pu.pb _ hs

theorem pa_cond {a b d : Text} {ca cb cd : C} (ha : PB a ca) (hb : PA b cb) (hd : PA d cd) :
    PA (a ++ sop .quest ++ b ++ sop .colon ++ d) (.cond ca cb cd) := by
  intro rest hr
  have e : toks (a ++ sop .quest ++ b ++ sop .colon ++ d) ++ rest =
      toks a ++ (.op .quest :: (toks b ++ (.op .colon :: (toks d ++ rest)))) := by
    simp [sop, toks_append, toks]
  rw [e]
  refine assign_of _ (ha _ rfl) ?_
  exact afterBinary_cond ca _ (expr_assign _ (hb _ rfl) rfl) (hd rest hr)

theorem pa_test {a b d : Text} {ca cb cd : C} (ha : PB a ca) (hb : PA b cb) (hd : PA d cd) :
    PA (test a b ++ d) (.cond ca cb cd) := by
  have h := pa_cond ha hb hd
  simpa [test, List.append_assoc] using h

/-! ### Comma lists -/

theorem toks_comma (a b : Text) (rest : List Tok) :
    toks (a ++ [.op .comma, .sp] ++ b) ++ rest = toks a ++ (.op .comma :: (toks b ++ rest)) := by
  simp [toks_append, toks]

/-- a list of texts and the trees they are read as -/
inductive All2 : List Text → List C → Prop where
  | nil : All2 [] []
  | cons {s c l cs} : Good s → PA s c → All2 l cs → All2 (s :: l) (c :: cs)

theorem All2.good {l : List Text} {cs : List C} (h : All2 l cs) : ∀ s ∈ l, Good s := by
  induction h with
  | nil => intro s hs; cases hs
  | cons hg _ _ ih =>
      intro s hs
      rcases List.mem_cons.1 hs with rfl | hs
      · exact hg
      · exact ih s hs

theorem more_args {l : List Text} {cs : List C} (h : All2 l cs) (hne : l ≠ []) (rest : List Tok) :
    Gets (fun n => moreArguments n (.op .comma :: (toks (commaJoin l) ++ .op .rpar :: rest))) (cs, rest) := by
  induction h with
  | nil => exact absurd rfl hne
  | @cons s c l cs hg hp hl ih =>
      cases l with
      | nil =>
          cases hl
          exact moreArguments_comma _ (hp _ rfl) (moreArguments_end rest)
      | cons s' l =>
          rw [commaJoin, toks_comma]
          exact moreArguments_comma _ (hp _ rfl) (ih (by simp))

theorem pp_call {l : List Text} {cs : List C} (a : Word) (h : All2 l cs) :
    PP (nm a ++ paren (commaJoin l)) (.call (.w a) cs) := by
  intro rest r hr
  rw [toks_nm_paren]
  refine unary_word a _ (suffixes_call _ _ (x := (cs, rest)) ?_ hr)
  cases h with
  | nil => exact arguments_none rest
  | @cons s c l cs hg hp hl =>
      cases l with
      | nil =>
          cases hl
          exact arguments_some _ (good_starts hg _) (hp _ rfl) (moreArguments_end rest)
      | cons s' l =>
          rw [commaJoin, toks_comma]
          exact arguments_some _ (good_starts hg _) (hp _ rfl) (more_args hl (by simp) rest)

theorem commas_list {l : List Text} {cs : List C} (h : All2 l cs) (hne : l ≠ []) (a : C) (rest : List Tok)
    (hr : stopExpr rest = true) :
    Gets (fun n => commas n a (.op .comma :: (toks (commaJoin l) ++ rest))) (cs.foldl .comma a, rest) := by
  induction h generalizing a with
  | nil => exact absurd rfl hne
  | @cons s c l cs hg hp hl ih =>
      cases l with
      | nil =>
          cases hl
          exact commas_comma a _ (hp _ (stopExpr_assign hr)) (commas_stop _ _ hr)
      | cons s' l =>
          rw [commaJoin, toks_comma]
          exact commas_comma a _ (hp _ rfl) (ih (by simp) _)

theorem join_snoc (l : List Text) (hne : l ≠ []) (s : Text) :
    commaJoin l ++ [.op .comma, .sp] ++ s = commaJoin (l ++ [s]) := by
  induction l with
  | nil => exact absurd rfl hne
  | cons a l ih =>
      cases l with
      | nil => simp [commaJoin]
      | cons b l =>
          have ih := ih (by simp)
          have e : commaJoin (a :: b :: l ++ [s]) = a ++ [.op .comma, .sp] ++ commaJoin (b :: l ++ [s]) := rfl
          rw [e, ← ih]
          simp [commaJoin, List.append_assoc]

theorem all2_snoc {l : List Text} {cs : List C} (h : All2 l cs) {s : Text} {c : C} (hg : Good s) (hp : PA s c) :
    All2 (l ++ [s]) (cs ++ [c]) := by
  induction h with
  | nil => exact .cons hg hp .nil
  | cons hg' hp' _ ih => exact .cons hg' hp' ih

/-- `( t0 = a, t1 = b, s )`, if there are any temporaries -/
theorem pp_ooe {hdr : List Text} {hcs : List C} {s : Text} {c : C} (h : All2 hdr hcs) (hg : Good s) (hp : PA s c)
    (hne : hdr ≠ []) : PP (ooeWrap hdr s) (ooeC hcs c) := by
  intro rest r hr
  unfold ooeWrap
  rw [if_neg (by cases hdr with | nil => exact absurd rfl hne | cons _ _ => simp), join_snoc _ hne]
  cases h with
  | nil => exact absurd rfl hne
  | @cons s1 c1 l cs hg1 hp1 hl =>
      have e : toks (paren (commaJoin (s1 :: l ++ [s]))) ++ rest =
          .op .lpar :: (toks s1 ++ (.op .comma :: (toks (commaJoin (l ++ [s])) ++ (.op .rpar :: rest)))) := by
        have e1 : commaJoin (s1 :: l ++ [s]) = s1 ++ [.op .comma, .sp] ++ commaJoin (l ++ [s]) := by
          cases l <;> rfl
        rw [e1]
        simp [paren, op, toks_append, toks]
      rw [e]
      refine unary_paren _ _ rest ?_ hr
      refine expr_of _ (hp1 _ rfl) ?_
      exact commas_list (all2_snoc hl hg hp) (by simp) c1 _ rfl

end Verif.CgTree

import Verif.CanonScan
/-! # C33: reading names back, and assignability -/
namespace Verif.Canon
open Verif Verif.Helpers

/-! ### labels and arguments are enumerated exactly -/

theorem appendGlobal_eq (pre : Str) {t : Target.Packed} (h : GoodT t) : Target.appendGlobal pre t = .ok (pre ++ encT t) := by
  obtain ⟨h1, h2, _⟩ := h.1.parts
  unfold Target.appendGlobal encT
  rw [h1, h2, h.2]
  simp only [Bool.and_self, beq_self_eq_true, if_true]
  rw [appendVarint_eq, appendVarint_eq]
  simp only [List.append_assoc]

theorem parseGlobal_eq (pre rest : Str) {t : Target.Packed} (h : GoodT t) :
    Target.parseGlobal (pre ++ encT t ++ rest) pre.length = .ok (t, (pre ++ encT t).length) := by
  obtain ⟨s, e, _, e2⟩ := Target.global_string_roundtrip pre rest t h.1 h.2
  rw [appendGlobal_eq pre h] at e
  have : pre ++ encT t = pre ++ s := by injection e
  rw [this]
  exact e2

/-- what a visitor of all labels is told -/
def Labels.subs : Labels → List Sub
  | .last t a => [{ text := a.render, specOf := t, isDeep := a.deep, isLast := true }]
  | .more t a rest => { text := a.render, specOf := t, isDeep := a.deep, isLast := false } :: rest.subs

/-- visit a list until the visitor leaves -/
def visitAll {α β : Type} (visit : α → Except Err (Option β)) : List α → Except Err (Option β)
  | [] => .ok none
  | x :: xs => match visit x with
    | .error e => .error e
    | .ok (some b) => .ok (some b)
    | .ok none => visitAll visit xs

theorem eachSubFrom_eq {β : Type} (visit : Sub → Except Err (Option β)) (ls : Labels) (h : ls.Ok) (pre : Str) :
    eachSubFrom (pre ++ ls.render) visit pre.length = visitAll visit ls.subs := by
  induction ls using Labels.rec (motive_1 := fun _ => True) (motive_2 := fun _ => True) generalizing pre with
  | last t a _ =>
    simp only [Labels.render, Labels.subs, visitAll]
    have e1 := parseGlobal_eq pre a.render h.1
    have e2 := scan_end (walk_args_bar a h.2) (pre ++ encT t)
    have e3 := slice_tail (pre ++ encT t) a.render
    simp only [← List.append_assoc] at e1 e2 e3 ⊢
    rw [eachSubFrom]
    split
    · rename_i he; rw [e1] at he; cases he
    · rename_i he
      rw [e1] at he
      cases he
      dsimp only
      rw [e2]
      dsimp only
      rw [e3, deep_args a h.2]
      dsimp only
      cases visit _ with
      | error e => rfl
      | ok r => cases r <;> simp
  | more t a rest _ ih =>
    simp only [Labels.render, Labels.subs, visitAll]
    have e1 := parseGlobal_eq pre (a.render ++ str "|" ++ rest.render) h.1
    have e2 := scan_stop (walk_args_bar a h.2.1) ⟨by decide, by decide⟩ (pre ++ encT t) rest.render
    have e3 := slice_mid (pre ++ encT t) a.render (str "|" ++ rest.render)
    have e4 := ih h.2.2 (pre ++ encT t ++ a.render ++ str "|")
    have e5 : str "|" = [ch '|'] := rfl
    simp only [← List.append_assoc, e5] at e1 e2 e3 e4 ⊢
    rw [eachSubFrom]
    split
    · rename_i he; rw [e1] at he; cases he
    · rename_i he
      rw [e1] at he
      cases he
      dsimp only
      rw [e2]
      dsimp only
      rw [e3, deep_args a h.2.1]
      dsimp only
      rw [← e4]
      cases visit _ with
      | error e => rfl
      | ok r =>
        cases r with
        | some b => rfl
        | none =>
          dsimp only
          rw [dif_neg (by simp)]
          congr 1
          simp only [List.length_append, List.length_singleton]
  | _ => trivial

/-- **C33** Of any label, exactly the templates it was made of are visited, in order, each with the text of its arguments,
with the right `isDeep` and `isLast`. -/
theorem labels_enumerated {β : Type} (ls : Labels) (h : ls.Ok) (visit : Sub → Except Err (Option β)) :
    eachSubPattern ls.render visit = visitAll visit ls.subs := by
  exact eachSubFrom_eq visit ls h []

/-- what a visitor of all arguments is told, `first` for the first of them -/
def Args.visits (first : Bool) : Args → List Arg
  | .one q t => [{ text := enc q ++ t.render, isDeep := t.deep, isLast := true, isFirst := first }]
  | .cons q t rest => { text := enc q ++ t.render, isDeep := t.deep, isLast := false, isFirst := first } :: rest.visits false

theorem walk_item (q : BitVec 32) (t : Ty) (h : t.Ok) : Walk (ch ':') 0 (enc q ++ t.render) :=
  walk_append (walk_enc q (Or.inl rfl)) (walk_ty t h (Or.inl rfl))

theorem deep_item (q : BitVec 32) (t : Ty) (h : t.Ok) : decide (ch '(' ∈ enc q ++ t.render) = t.deep := by
  rw [← deep_ty t h]
  simp only [List.mem_append, paren_enc q, false_or]

theorem argsFrom_eq (a : Args) (h : a.Ok) (pre : Str) : argsFrom (pre ++ a.render) pre.length = .ok (a.visits (pre.length == 0)) := by
  induction a using Args.rec (motive_1 := fun _ => True) (motive_3 := fun _ => True) generalizing pre with
  | one q t _ =>
    simp only [Args.render, Args.visits]
    rw [argsFrom]
    dsimp only
    rw [scan_end (walk_item q t h) pre, deep_item q t h]
    dsimp only
    rw [slice_tail]
    dsimp only
    rw [dif_pos rfl]
  | cons q t rest _ ih =>
    simp only [Args.render, Args.visits]
    have e2 := scan_stop (walk_item q t h.1) ⟨by decide, by decide⟩ pre rest.render
    have e3 := slice_mid pre (enc q ++ t.render) (str ":" ++ rest.render)
    have e4 := ih h.2 (pre ++ (enc q ++ t.render) ++ str ":")
    have e5 : str ":" = [ch ':'] := rfl
    simp only [← List.append_assoc, e5] at e2 e3 e4 ⊢
    rw [argsFrom]
    dsimp only
    rw [e2, deep_item q t h.1]
    dsimp only
    rw [e3]
    dsimp only
    rw [dif_neg (by simp)]
    have e6 : (pre ++ enc q ++ t.render ++ [ch ':']).length = pre.length + (enc q ++ t.render).length + 1 := by
      simp only [List.length_append, List.length_singleton]; omega
    rw [e6] at e4
    rw [e4]
    have e7 : (pre.length + (enc q ++ t.render).length + 1 == 0) = false := by simp
    rw [e7]
  | _ => trivial

/-- **C33** Of the arguments of a template exactly the types it was given are visited, in order, with the right marks. -/
theorem arguments_enumerated (a : Args) (h : a.Ok) : eachArgSpecType a.render = .ok (a.visits true) := by
  exact argsFrom_eq a h []

theorem visits_texts (a : Args) (b : Bool) : (a.visits b).map (·.text) = a.toList.map fun (q, t) => enc q ++ t.render := by
  induction a using Args.rec (motive_1 := fun _ => True) (motive_3 := fun _ => True) generalizing b with
  | one q t _ => rfl
  | cons q t rest _ ih => simp only [Args.visits, Args.toList, List.map_cons, ih]
  | _ => trivial

theorem idxOf_paren {x : Str} (h : ch '(' ∉ x) (y : Str) : (x ++ [ch '('] ++ y).idxOf (ch '(') = x.length := by
  induction x with
  | nil => simp
  | cons a x ih =>
    have h1 : ¬ (a == ch '(') = true := fun e => h (by rw [LawfulBEq.eq_of_beq e]; exact List.mem_cons_self ..)
    simp only [List.cons_append, List.idxOf_cons, List.length_cons, h1, cond_false]
    rw [ih fun e => h (List.mem_cons_of_mem _ e)]

theorem gen_render (b : Str) (ls : Labels) : (Ty.gen b ls).render = b ++ str "(" ++ ls.render ++ str ")" := by
  simp only [Ty.render]

theorem name_render (b : Str) : (Ty.name b).render = b := by simp only [Ty.render]

theorem findPlus1_eq {x : Str} (h : ch '(' ∉ x) (y : Str) : findPlus1 (x ++ str "(" ++ y) (ch '(') = x.length + 1 := by
  unfold findPlus1
  have e : str "(" = [ch '('] := rfl
  rw [e, if_pos (by simp), idxOf_paren h]

theorem slice_pattern (x y : Str) : slice (x ++ str "(" ++ y ++ str ")") (x.length + 1) ((x ++ str "(" ++ y ++ str ")").length - 1) = .ok y := by
  have := slice_mid (x ++ str "(") y (str ")")
  have e1 : (x ++ str "(").length = x.length + 1 := by simp [str]
  have e2 : (x ++ str "(" ++ y ++ str ")").length - 1 = x.length + 1 + y.length := by simp [str]; omega
  rw [e2, ← e1]
  exact this

theorem endsWith_paren (x : Str) : endsWith (x ++ str ")") (ch ')') = true := by
  have e : str ")" = [ch ')'] := rfl
  unfold endsWith
  rw [e, List.getLast?_append]
  rfl

theorem not_ends_plain (p : Str) {s : Str} (h : Plain s) : endsWith (p ++ s) (ch ')') = false := by
  unfold endsWith
  rw [List.getLast?_append]
  cases hl : s.getLast? with
  | none => exact absurd (List.getLast?_eq_none_iff.1 hl) h.1
  | some c =>
    have := (h.2.2 c (List.mem_of_getLast? hl)).2.1
    simp [this]

theorem not_ends_arr (p : Str) (q : BitVec 32) (t : Ty) : endsWith (p ++ (Ty.arr q t).render) (ch ')') = false := by
  have e : str "]" = [ch ']'] := rfl
  unfold endsWith
  simp only [Ty.render, e, ← List.append_assoc]
  rw [List.getLast?_append]
  simp only [List.getLast?_singleton, Option.some_or]
  decide

/-- **C33** The label of a name reads back: `tryGetPattern` gives exactly what was put in parentheses, or nothing. -/
theorem pattern_reads_back (t : Ty) (h : t.Ok) :
    tryGetPattern t.render = .ok (match t with | .gen _ ls => ls.render | _ => []) := by
  cases t with
  | name s =>
    rw [name_render]
    unfold tryGetPattern
    rw [if_neg (by simpa using not_ends_plain [] h)]
  | arr q t =>
    unfold tryGetPattern
    rw [if_neg (by simpa using not_ends_arr [] q t)]
  | gen b ls =>
    rw [gen_render]
    unfold tryGetPattern
    rw [if_pos (endsWith_paren _)]
    have := findPlus1_eq (paren_plain h.1) (ls.render ++ str ")")
    simp only [← List.append_assoc] at this ⊢
    rw [this, slice_pattern]

/-- **C33** `trimPattern` removes exactly the label of a labelled name and changes no plain name. -/
theorem trim_removes_label (b : Str) (h : Plain b) (ls : Labels) :
    trimPattern (Ty.gen b ls).render = b ∧ trimPattern (Ty.name b).render = b := by
  have hp := paren_plain h
  have e : str "(" = [ch '('] := rfl
  constructor
  · rw [gen_render]
    unfold trimPattern
    rw [e, if_pos (by simp), List.append_assoc, idxOf_paren hp]
    simp
  · rw [name_render]
    unfold trimPattern
    rw [if_neg hp]

/-! ### the names the compiler makes are such trees -/

/-- `createArray` gives the array's name. -/
theorem array_name (q : BitVec 32) (t : Ty) (h : t.render ≠ []) : arrayCanon q t.render = .ok (Ty.arr q t).render := by
  unfold arrayCanon serializeType
  rw [if_neg h, appendVarint_eq]
  rfl

theorem plain_ne (t : Ty) (h : t.Ok) : t.render ≠ [] := by
  cases t with
  | name s => exact h.1
  | arr q t => simp [Ty.render, str]
  | gen b ls => simp [Ty.render, str]

theorem specPatLoop_eq (T : Target.Packed) (a : Args) (h : a.Ok) (pat : Str) (hp : pat ≠ []) :
    specPatLoop T (a.toList.map fun (q, t) => (q, t.render)) pat = .ok (pat ++ str ":" ++ a.render) := by
  induction a using Args.rec (motive_1 := fun _ => True) (motive_3 := fun _ => True) generalizing pat with
  | one q t _ =>
    simp only [Args.toList, List.map_cons, List.map_nil, specPatLoop, bind, Except.bind, if_neg hp]
    unfold serializeType
    rw [if_neg (plain_ne t h), appendVarint_eq]
    simp only [Args.render, List.nil_append]
  | cons q t rest _ ih =>
    simp only [Args.toList, List.map_cons, specPatLoop, bind, Except.bind, if_neg hp]
    unfold serializeType
    rw [if_neg (plain_ne t h.1), appendVarint_eq]
    simp only
    rw [ih h.2 _ (by simp [str])]
    simp only [Args.render, List.nil_append, List.append_assoc]
  | _ => trivial

/-- **C33** The label the compiler makes for a type defined inside a template is the one this tree describes. -/
theorem label_name (T : Target.Packed) (hT : GoodT T) (a : Args) (h : a.Ok) (b : Str) :
    (getSpecPat T (a.toList.map fun (q, t) => (q, t.render))).map (b ++ ·) = .ok (Ty.gen b (.last T a)).render := by
  have e : ∃ s, specPatLoop T (a.toList.map fun (q, t) => (q, t.render)) [] = .ok s ∧ s = str "(" ++ encT T ++ a.render := by
    cases a with
    | one q t =>
      simp only [Args.toList, List.map_cons, List.map_nil, specPatLoop, bind, Except.bind, if_true]
      rw [appendGlobal_eq _ hT]
      unfold serializeType
      rw [if_neg (plain_ne t h), appendVarint_eq]
      exact ⟨_, rfl, rfl⟩
    | cons q t rest =>
      simp only [Args.toList, List.map_cons, specPatLoop, bind, Except.bind, if_true]
      rw [appendGlobal_eq _ hT]
      unfold serializeType
      rw [if_neg (plain_ne t h.1), appendVarint_eq]
      simp only
      rw [specPatLoop_eq T rest h.2 _ (by simp [str])]
      exact ⟨_, rfl, by simp only [Args.render, List.nil_append, List.append_assoc]⟩
  obtain ⟨s, e1, e2⟩ := e
  unfold getSpecPat
  rw [e1, e2]
  simp only [bind, Except.bind, Except.map]
  rw [if_neg (by simp [str])]
  simp only [Ty.render, Labels.render, List.append_assoc]

end Verif.Canon

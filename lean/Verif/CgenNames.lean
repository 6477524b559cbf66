import Verif.Cgen
import Verif.CgenNameSpec
import Verif.CgenIdent
import Verif.DecstrProps
/-!
# Names of local variables (C74)
-/
namespace Verif.Cgen
open Verif Verif.Cgen.Spec

/-- src/codegen.fu:1107-1117 (`cgBlock` saves the length of `_ids_used` on entry and shrinks to it on exit), 1731 (`binding`
declares with `dedupe: true`), 2671 (a mention: `localID(target)`), 2715-2721 (a global: `rootNS`).  `nm` is the fu name of
each local; `marks` are the saved lengths of the open blocks. -/
def emit (nm : Int → Str) : Locals → List Nat → List Ev → Option (List CEv)
  | _, _, [] => some []
  | st, marks, .enter :: t => do
    let r ← emit nm st (st.used.length :: marks) t
    some (.enter :: r)
  | st, marks, .leave :: t =>
    match marks with
    | [] => none
    | m :: marks => do
      let r ← emit nm { st with used := st.used.take m } marks t
      some (.leave :: r)
  | st, marks, .declare l :: t => do
    let (st, id) ← localID st l (nm l) true
    let r ← emit nm st marks t
    some (.declare id l :: r)
  | st, marks, .use l :: t => do
    let (st, id) ← localID st l (nm l) false
    let r ← emit nm st marks t
    some (.name false id :: r)
  | st, marks, .global id :: t => do
    let r ← emit nm st marks t
    some (.name (rootNS st id) id :: r)

/-! ## The number lists -/

theorem ifExists_ensureSet (a : List Nat) (i j v : Nat) : ifExists (ensureSet a i v) j = if i = j then v else ifExists a j := by
  unfold ifExists ensureSet
  rw [List.getElem?_set]
  by_cases h : i = j
  · subst h
    rw [if_pos rfl, if_pos rfl, if_pos]
    · rfl
    · split
      · simp; omega
      · omega
  · rw [if_neg h, if_neg h]
    split
    · rw [List.getElem?_append]
      split
      · rfl
      · rename_i h2
        rw [List.getElem?_eq_none (by omega : a.length ≤ j), List.getElem?_replicate]
        split <;> rfl
    · rfl

/-- The number stored for a local. -/
def num (st : Locals) (l : Int) : Nat := if l < 0 then ifExists st.dedN (-l).toNat else ifExists st.dedP l.toNat

theorem refName_eq (st : Locals) (l : Int) (id : Str) : refName st l id = candidate id (num st l) := by
  show (if num st l ≠ 0 then candidate id (num st l) else id) = _
  unfold candidate
  by_cases h : num st l ≠ 0
  · rw [if_pos h, if_pos h]
  · rw [if_neg h, if_neg h]

/-- Where "Dedupe #1" writes the number. -/
def store (st : Locals) (l : Int) (dupes : Nat) : Locals :=
  if dupes ≠ 0 then
    if l < 0 then { st with dedN := ensureSet st.dedN (-l).toNat dupes }
    else { st with dedP := ensureSet st.dedP l.toNat dupes }
  else st

theorem num_store (st : Locals) (l k : Int) (d : Nat) (h0 : num st l = 0) :
    num (store st l d) k = if l = k then d else num st k := by
  unfold store
  by_cases hd : d ≠ 0
  · rw [if_pos hd]
    by_cases hl : l < 0
    · rw [if_pos hl]
      unfold num
      dsimp only
      by_cases hk : k < 0
      · rw [if_pos hk, if_pos hk, ifExists_ensureSet]
        by_cases e : l = k
        · rw [if_pos e, if_pos (by rw [e])]
        · rw [if_neg e, if_neg (by omega)]
      · rw [if_neg hk, if_neg hk, if_neg (by omega)]
    · rw [if_neg hl]
      unfold num
      dsimp only
      by_cases hk : k < 0
      · rw [if_pos hk, if_pos hk, if_neg (by omega)]
      · rw [if_neg hk, if_neg hk, ifExists_ensureSet]
        by_cases e : l = k
        · rw [if_pos e, if_pos (by rw [e])]
        · rw [if_neg e, if_neg (by omega)]
  · rw [if_neg hd]
    by_cases e : l = k
    · subst e; rw [if_pos rfl, h0]; omega
    · rw [if_neg e]

theorem store_used (st : Locals) (l : Int) (d : Nat) : (store st l d).used = st.used := by
  unfold store; split <;> (try split) <;> rfl

/-! ## Picking a free name -/

theorem candidate_inj (id : Str) (a b : Nat) (ha : a < 2 ^ 63) (hb : b < 2 ^ 63) (h : candidate id a = candidate id b) : a = b := by
  unfold candidate at h
  by_cases h1 : a ≠ 0 <;> by_cases h2 : b ≠ 0
  · rw [if_pos h1, if_pos h2] at h
    have h := List.append_cancel_left h
    have := congrArg BitVec.toNat (Decstr.i64dec_injective h)
    simp only [BitVec.toNat_ofNat] at this
    omega
  · rw [if_pos h1, if_neg h2] at h
    have := congrArg List.length h
    simp at this
  · rw [if_neg h1, if_pos h2] at h
    have := congrArg List.length h
    simp at this
  · omega

theorem pick_sound (used : List Str) (id : Str) (n d r : Nat) (h : pick used id n d = some r) : candidate id r ∉ used ∧ r < d + n := by
  induction n generalizing d with
  | zero => cases h
  | succ n ih =>
    rw [pick] at h
    split at h
    · have := ih _ h; exact ⟨this.1, by omega⟩
    · rename_i hm
      cases h; exact ⟨hm, by omega⟩

theorem pick_none (used : List Str) (id : Str) (n d : Nat) (h : pick used id n d = none) : ∀ k, d ≤ k → k < d + n → candidate id k ∈ used := by
  induction n generalizing d with
  | zero => intro k h1 h2; omega
  | succ n ih =>
    rw [pick] at h
    split at h
    · rename_i hm
      intro k h1 h2
      by_cases e : k = d
      · subst e; exact hm
      · exact ih _ h k (by omega) (by omega)
    · cases h

/-- The loop of `localID` ends: a list cannot contain more names than it has entries. -/
theorem pick_total (used : List Str) (id : Str) (hl : used.length < 2 ^ 31) : ∃ r, pick used id (used.length + 1) 0 = some r := by
  cases h : pick used id (used.length + 1) 0 with
  | some r => exact ⟨r, rfl⟩
  | none =>
    exfalso
    have hall := pick_none _ _ _ _ h
    have key : ∀ n, n ≤ 2 ^ 62 → ∀ used : List Str, (∀ k < n, candidate id k ∈ used) → n ≤ used.length := by
      intro n
      induction n with
      | zero => intros; omega
      | succ n ih =>
        intro hn used hu
        have hm := hu n (by omega)
        have := ih (by omega) (used.erase (candidate id n)) (by
          intro k hk
          refine (List.mem_erase_of_ne ?_).2 (hu k (by omega))
          intro e
          have := candidate_inj id k n (by omega) (by omega) e
          omega)
        rw [List.length_erase_of_mem hm] at this
        have : used ≠ [] := by intro e; subst e; cases hm
        have : 0 < used.length := List.length_pos_iff.2 this
        omega
    have := key (used.length + 1) (by omega) used (fun k hk => hall k (by omega) (by omega))
    omega

/-- The base name of a local: its fu name made a C++ identifier. -/
def base (name : Str) : Str := (do let id ← Cpp.ID name; valid_identifier id).getD []

theorem base_some (name : Str) : (do let id ← Cpp.ID name; valid_identifier id) = some (base name) := by
  unfold base
  rw [Cpp.ID_eq]
  simp only [Option.bind_eq_bind, Option.bind_some]
  rw [valid_identifier_eq, Cpp.ID_eq]; rfl

theorem localID_eq (st : Locals) (l : Int) (name : Str) (dedupe : Bool) :
    localID st l name dedupe =
      if dedupe then do
        let d ← pick st.used (base name) (st.used.length + 1) 0
        let st' := store { st with used := st.used ++ [candidate (base name) d] } l d
        some (st', candidate (base name) (num st' l))
      else some (st, candidate (base name) (num st l)) := by
  have hb := base_some name
  unfold localID
  cases hI : Cpp.ID name with
  | none => rw [hI] at hb; simp at hb
  | some i =>
    rw [hI] at hb
    simp only [Option.bind_eq_bind, Option.bind_some] at hb ⊢
    rw [hb]
    simp only [Option.bind_some]
    cases dedupe with
    | false => simp only [Bool.false_eq_true, if_false, refName_eq]
    | true =>
      simp only [if_true, refName_eq]
      rfl

/-- What C74 needs of the fu names: not empty, and not beginning with a digit. -/
def Named (nm : Int → Str) : Prop := ∀ l, nm l ≠ [] ∧ ∀ c, (nm l).head? = some c → ¬ Spec.digit c

theorem base_valid (name : Str) (hn : name ≠ []) (hd : ∀ c, name.head? = some c → ¬ Spec.digit c) :
    Identifier (base name) ∧ ∀ k ∈ Cpp.cpp20, base name ≠ str k := by
  have hb := base_some name
  rw [Cpp.ID_eq] at hb
  simp only [Option.bind_eq_bind, Option.bind_some] at hb
  have k1 : ∀ w ∈ Cpp.words, Cpp.mangle w ≠ [] := by decide +kernel
  have k2 : ∀ w ∈ Cpp.words, ((Cpp.mangle w).head?.all fun c => !decide (Spec.digit c)) = true := by decide +kernel
  obtain ⟨r, h1, h2, h3⟩ := identifier_valid (if name ∈ Cpp.words then Cpp.mangle name else name) (by
      split
      · rename_i hw; exact k1 name hw
      · exact hn) (by
      split
      · rename_i hw
        intro c hc
        have := k2 name hw
        rw [hc] at this
        simpa using this
      · exact hd)
  rw [hb] at h1
  rw [Option.some.inj h1]; exact ⟨h2, h3⟩

theorem candidate_valid (id : Str) (d : Nat) (hd : d < 2 ^ 63) (h : Identifier id ∧ ∀ k ∈ Cpp.cpp20, id ≠ str k) :
    Identifier (candidate id d) ∧ ∀ k ∈ Cpp.cpp20, candidate id d ≠ str k := by
  unfold candidate
  by_cases h0 : d ≠ 0
  · rw [if_pos h0]
    have hden := Decstr.i64dec_denotes (BitVec.ofNat 64 d)
    have hti : (BitVec.ofNat 64 d).toInt = d := by
      rw [BitVec.toInt_eq_toNat_of_lt] <;> simp <;> omega
    rw [hti] at hden
    have hc : Decstr.Canonical (Decstr.i64dec (BitVec.ofNat 64 d)) := by
      rcases hden with h | h
      · exact h.2.1
      · omega
    obtain ⟨hne, hdig, -⟩ := hc
    have dig : ∀ b : Byte, Decstr.isDigit b → Spec.digit b := fun b h => h
    obtain ⟨⟨c, t, rfl, hc, ht⟩, -⟩ := h
    refine ⟨⟨c, t ++ [ch '_'] ++ Decstr.i64dec (BitVec.ofNat 64 d), rfl, hc, ?_⟩, ?_⟩
    · intro b hb
      simp only [List.mem_append, List.mem_singleton] at hb
      rcases hb with (hb | rfl) | hb
      · exact ht b hb
      · exact .inl (by decide)
      · exact .inr (dig b (hdig b hb))
    · intro k hk e
      have kl : ∀ k ∈ Cpp.cpp20, ((str k).getLast?.all fun c => !decide (Spec.digit c)) = true := by decide +kernel
      have := kl k hk
      rw [← e, List.getLast?_append, List.getLast?_eq_some_getLast hne] at this
      simp only [Option.some_or, Option.all_some, Bool.not_eq_true', decide_eq_false_iff_not] at this
      exact this (dig _ (hdig _ (List.getLast_mem hne)))
  · rw [if_neg h0]; exact h

/-! ## The invariant -/

/-- The state of the emitter agrees with the C++ scopes `env` and the fu scopes `sc`. -/
structure Inv (nm : Int → Str) (st : Locals) (marks : List Nat) (sc : List (List Int)) (seen : List Int)
    (env : List (List (Str × Int))) : Prop where
  scopes : env.map (fun s => s.map (·.2)) = sc
  names : env.flatten.map (·.1) = st.used.reverse
  distinct : st.used.Nodup
  named : ∀ p ∈ env.flatten, p.1 = candidate (base (nm p.2)) (num st p.2)
  fresh : ∀ l, l ∉ seen → num st l = 0
  small : ∀ l, num st l < 2 ^ 32
  seen_ : ∀ l ∈ sc.flatten, l ∈ seen
  marks_ : marks.length + 1 = sc.length ∧ ∀ i (h : i < marks.length), marks[i] = ((env.drop (i + 1)).flatten).length

theorem lookup_of_mem (env : List (List (Str × Int))) (n : Str) (l : Int) (hd : (env.flatten.map (·.1)).Nodup)
    (hm : (n, l) ∈ env.flatten) : lookup env n = some l := by
  unfold lookup
  generalize env.flatten = es at *
  induction es with
  | nil => cases hm
  | cons p t ih =>
    rw [List.map_cons, List.nodup_cons] at hd
    rw [List.find?_cons]
    by_cases h : p.1 = n
    · rw [show decide (p.1 = n) = true by simp [h]]
      rcases List.mem_cons.1 hm with e | hm
      · subst e; rfl
      · exact absurd (List.mem_map_of_mem (f := Prod.fst) hm) (by simpa [h] using hd.1)
    · rw [show decide (p.1 = n) = false by simp [h]]
      rcases List.mem_cons.1 hm with e | hm
      · subst e; exact absurd rfl h
      · exact ih hd.2 hm

theorem lookup_none (env : List (List (Str × Int))) (n : Str) (h : n ∉ env.flatten.map (·.1)) : lookup env n = none := by
  unfold lookup
  rw [Option.map_eq_none_iff, List.find?_eq_none]
  intro p hp
  simp only [decide_eq_true_eq]
  intro e
  exact h (List.mem_map.2 ⟨p, hp, e⟩)

/-- Declarations in a program. -/
def decls : List Ev → Nat
  | [] => 0
  | .declare _ :: t => decls t + 1
  | _ :: t => decls t

/-- Every name that is declared is a C++ identifier and not a keyword. -/
def Lawful (out : List CEv) : Prop := ∀ n l, CEv.declare n l ∈ out → Identifier n ∧ ∀ k ∈ Cpp.cpp20, n ≠ str k

theorem emit_ok (nm : Int → Str) (evs : List Ev) : ∀ (st : Locals) (marks : List Nat) (sc : List (List Int)) (seen : List Int)
    (env : List (List (Str × Int))), Inv nm st marks sc seen env → Scoped sc seen evs → st.used.length + decls evs < 2 ^ 31 →
    ∃ out, emit nm st marks evs = some out ∧ resolve env out = some (meant evs) ∧ (Named nm → Lawful out) := by
  induction evs with
  | nil => intro st marks sc seen env _ _ _; exact ⟨[], rfl, by cases env <;> rfl, fun _ _ _ h => by cases h⟩
  | cons e t ih =>
    intro st marks sc seen env hi hs hl
    cases e with
    | enter =>
      have hi' : Inv nm st (st.used.length :: marks) ([] :: sc) seen ([] :: env) := by
        refine ⟨by simp [hi.scopes], by simpa using hi.names, hi.distinct, by simpa using hi.named, hi.fresh, hi.small, by simpa using hi.seen_, ?_, ?_⟩
        · simp [← hi.marks_.1]
        · intro i h
          cases i with
          | zero =>
            have h := congrArg List.length hi.names
            rw [List.length_map, List.length_reverse] at h
            exact h.symm
          | succ i => exact hi.marks_.2 i (by simpa using h)
      obtain ⟨out, h1, h2, h3⟩ := ih _ _ _ _ _ hi' hs hl
      refine ⟨.enter :: out, ?_, ?_, fun hn n l h => h3 hn n l (by simpa using h)⟩
      · rw [emit, h1]; rfl
      · rw [resolve, h2]; rfl
    | leave =>
      obtain ⟨s, s', r, rfl, hs⟩ := hs
      obtain ⟨m, marks, rfl⟩ : ∃ m ms, marks = m :: ms := by
        cases marks with
        | nil => have := hi.marks_.1; simp at this
        | cons m ms => exact ⟨m, ms, rfl⟩
      have hsc := hi.scopes
      obtain ⟨e1, e', er, rfl⟩ : ∃ a b c, env = a :: b :: c := by
        match env, hsc with
        | a :: b :: c, _ => exact ⟨a, b, c, rfl⟩
      simp only [List.map_cons, List.cons.injEq] at hsc
      have hm0 : m = ((e' :: er).flatten).length := hi.marks_.2 0 (by simp)
      have hnames : (e' :: er).flatten.map (·.1) = (st.used.take m).reverse := by
        have h := hi.names
        rw [List.flatten_cons, List.map_append] at h
        have h2 := congrArg List.reverse h
        rw [List.reverse_reverse, List.reverse_append] at h2
        have h3 : ((e' :: er).flatten.map (fun x => x.1)).reverse.length = m := by rw [List.length_reverse, List.length_map, hm0]
        rw [← h2, ← h3, List.take_left, List.reverse_reverse]
      have hi' : Inv nm { st with used := st.used.take m } marks (s' :: r) seen (e' :: er) := by
        refine ⟨by simp [hsc], hnames, hi.distinct.sublist (List.take_sublist _ _), ?_, hi.fresh, hi.small, ?_, ?_, ?_⟩
        · intro p hp
          exact hi.named p (by rw [List.flatten_cons]; exact List.mem_append_right _ hp)
        · intro l hl
          exact hi.seen_ l (by rw [List.flatten_cons]; exact List.mem_append_right _ hl)
        · have := hi.marks_.1; simp at this ⊢; omega
        · intro i h
          exact hi.marks_.2 (i + 1) (by simpa using h)
      obtain ⟨out, h1, h2, h3⟩ := ih _ _ _ _ _ hi' hs (by
        have : (st.used.take m).length ≤ st.used.length := by simp; omega
        simp only [decls] at hl; show (st.used.take m).length + _ < _; omega)
      refine ⟨.leave :: out, ?_, ?_, fun hn n l h => h3 hn n l (by simpa using h)⟩
      · rw [emit]; simp only [h1]; rfl
      · rw [resolve, h2]; rfl
    | declare l =>
      obtain ⟨h0, hns, s, r, rfl, hs⟩ := hs
      have hsc := hi.scopes
      obtain ⟨e1, er, rfl⟩ : ∃ a c, env = a :: c := by
        match env, hsc with
        | a :: c, _ => exact ⟨a, c, rfl⟩
      simp only [List.map_cons, List.cons.injEq] at hsc
      simp only [decls] at hl
      obtain ⟨d, hd⟩ := pick_total st.used (base (nm l)) (by omega)
      obtain ⟨hfree, hdlt⟩ := pick_sound _ _ _ _ _ hd
      have hn0 := hi.fresh l hns
      have hnum : ∀ k, num (store { st with used := st.used ++ [candidate (base (nm l)) d] } l d) k = if l = k then d else num st k :=
        fun k => num_store _ l k d hn0
      have hloc : localID st l (nm l) true = some (store { st with used := st.used ++ [candidate (base (nm l)) d] } l d, candidate (base (nm l)) d) := by
        rw [localID_eq, if_pos rfl, hd]
        simp only [Option.bind_eq_bind, Option.bind_some]
        rw [hnum l, if_pos rfl]
      generalize hst : store { st with used := st.used ++ [candidate (base (nm l)) d] } l d = st' at *
      have hused : st'.used = st.used ++ [candidate (base (nm l)) d] := by rw [← hst, store_used]
      have hi' : Inv nm st' marks ((l :: s) :: r) (l :: seen) (((candidate (base (nm l)) d, l) :: e1) :: er) := by
        refine ⟨by simp [hsc], ?_, ?_, ?_, ?_, ?_, ?_, ?_, ?_⟩
        · rw [hused, List.reverse_append]
          have := hi.names
          simp only [List.flatten_cons, List.cons_append, List.map_cons] at this ⊢
          rw [this]; rfl
        · rw [hused, List.nodup_append]
          refine ⟨hi.distinct, by simp, ?_⟩
          intro a ha b hb
          rw [List.mem_singleton] at hb
          subst hb
          intro e; subst e; exact hfree ha
        · intro p hp
          simp only [List.flatten_cons, List.cons_append, List.mem_cons] at hp
          rcases hp with rfl | hp
          · rw [hnum, if_pos rfl]
          · have hp' : p ∈ (e1 :: er).flatten := by simpa using hp
            rw [hnum, if_neg, hi.named p hp']
            intro e
            apply hns
            apply hi.seen_
            have : p.2 ∈ ((e1 :: er).map fun s => s.map (·.2)).flatten := by
              rw [← List.map_flatten]; exact List.mem_map_of_mem hp'
            rw [hi.scopes] at this
            rw [e]; exact this
        · intro k hk
          rw [List.mem_cons, not_or] at hk
          rw [hnum, if_neg (fun e => hk.1 e.symm), hi.fresh k hk.2]
        · intro k
          rw [hnum]
          split
          · omega
          · exact hi.small k
        · intro k hk
          simp only [List.flatten_cons, List.cons_append, List.mem_cons] at hk
          rcases hk with rfl | hk
          · simp
          · exact List.mem_cons_of_mem _ (hi.seen_ k (by simpa using hk))
        · simpa using hi.marks_.1
        · intro i h
          exact hi.marks_.2 i h
      obtain ⟨out, h1, h2, h3⟩ := ih _ _ _ _ _ hi' hs (by rw [hused]; simp; omega)
      refine ⟨.declare (candidate (base (nm l)) d) l :: out, ?_, ?_, fun hn n k h => ?_⟩
      rotate_left 2
      · simp only [List.mem_cons, CEv.declare.injEq] at h
        rcases h with ⟨rfl, rfl⟩ | h
        · exact candidate_valid _ d (by omega) (base_valid _ (hn _).1 (hn _).2)
        · exact h3 hn n k h
      · rw [emit, hloc]
        simp only [Option.bind_eq_bind, Option.bind_some]
        rw [h1]; rfl
      · rw [resolve, if_neg, h2]
        · rfl
        · intro hc
          have hc : candidate (base (nm l)) d ∈ e1.map (·.1) := by simpa using hc
          apply hfree
          have : candidate (base (nm l)) d ∈ ((e1 :: er).flatten.map (·.1)) := by
            rw [List.flatten_cons, List.map_append]; exact List.mem_append_left _ hc
          rw [hi.names] at this
          simpa using this
    | use l =>
      obtain ⟨hin, hs⟩ := hs
      obtain ⟨out, h1, h2, h3⟩ := ih _ _ _ _ _ hi hs (by simpa [decls] using hl)
      refine ⟨.name false (candidate (base (nm l)) (num st l)) :: out, ?_, ?_, fun hn n l h => h3 hn n l (by simpa using h)⟩
      · rw [emit, localID_eq]
        simp only [Bool.false_eq_true, if_false, Option.bind_eq_bind, Option.bind_some]
        rw [h1]; rfl
      · rw [resolve, h2]
        have : lookup env (candidate (base (nm l)) (num st l)) = some l := by
          have hm : l ∈ env.flatten.map (·.2) := by
            rw [List.map_flatten, hi.scopes]; exact hin
          obtain ⟨p, hp, rfl⟩ := List.mem_map.1 hm
          apply lookup_of_mem
          · rw [hi.names]; exact List.pairwise_reverse.2 (hi.distinct.imp Ne.symm)
          · rw [← hi.named p hp]; exact hp
        simp [this, meant]
    | global id =>
      obtain ⟨out, h1, h2, h3⟩ := ih _ _ _ _ _ hi hs (by simpa [decls] using hl)
      refine ⟨.name (rootNS st id) id :: out, ?_, ?_, fun hn n l h => h3 hn n l (by simpa using h)⟩
      · rw [emit, h1]; rfl
      · rw [resolve, h2]
        have : (if rootNS st id = true then none else lookup env id) = none := by
          by_cases h : id ∈ st.used
          · rw [if_pos (by simp [rootNS, h])]
          · rw [if_neg (by simp [rootNS, h]), lookup_none]
            rw [hi.names]; simpa using h
        simp [this, meant]

/-- **C74.** Emit the body of any function whose locals are declared once and mentioned only where they are in scope - with
any nesting of blocks, any number of locals of the same name, names that look like a numbered name (`a_1`), and globals that
have the name of a local.  The C++ compiles (no name is declared twice in a block) and every emitted name refers, by C++
scoping, to what the fu program meant: the local that was mentioned, or the global.  If the fu names are not empty and do
not begin with a digit, every declared C++ name is an identifier and no keyword. -/
theorem names_resolve (nm : Int → Str) (evs : List Ev) (hs : Scoped [[]] [] evs) (hl : decls evs < 2 ^ 31) :
    ∃ out, emit nm ⟨[], [], []⟩ [] evs = some out ∧ resolve [[]] out = some (meant evs) ∧ (Named nm → Lawful out) := by
  refine emit_ok nm evs _ _ _ _ _ ?_ hs (by simpa using hl)
  refine ⟨rfl, rfl, List.nodup_nil, by simp, ?_, ?_, by simp, rfl, by simp⟩
  · intro l _
    simp [num, ifExists]
  · intro l
    simp [num, ifExists]

/-- Not vacuous: parameter `a`, a local `a_1`, an inner `a` (which becomes `a_2`), a global `a` from inside, and a second
local called `while` in a sibling block. -/
def demo : List Ev :=
  [.declare (-1), .declare 1, .enter, .declare 2, .use 2, .use (-1), .global (str "a"), .leave, .enter, .declare 3, .use 3, .use 1,
   .leave, .use (-1)]
def demoNames (l : Int) : Str := if l = 1 then str "a_1" else if l = 3 then str "while" else str "a"

example : Scoped [[]] [] demo := by
  refine ⟨by simp, by simp, _, _, rfl, by simp, by simp, _, _, rfl, by simp, by simp, _, _, rfl, by simp, by simp, _, _, _, rfl, by simp, by simp, _, _, rfl, by simp, by simp, _, _, _, rfl, by simp, trivial⟩
example : Named demoNames := by
  intro l
  unfold demoNames
  constructor
  · (repeat' split) <;> decide
  · (repeat' split) <;> decide +kernel
example : emit demoNames ⟨[], [], []⟩ [] demo = some
    [.declare (str "a") (-1), .declare (str "a_1") 1, .enter, .declare (str "a_2") 2, .name false (str "a_2"),
     .name false (str "a"), .name true (str "a"), .leave, .enter, .declare (str "wHile") 3, .name false (str "wHile"),
     .name false (str "a_1"), .leave, .name false (str "a")] := by decide +kernel

end Verif.Cgen

import Verif.Pool
/-! # C38: pool slots -/
namespace Verif.Pool
open Verif

variable {T : Type} {L : Link T} {dbg : Bool}

theorem and_bit (x : BitVec 32) (i : Nat) (h : i < 32) : (x &&& (1#32 <<< i) != 0#32) = x.getLsbD i := by
  have hm : ∀ k, (1#32 <<< i).getLsbD k = decide (k = i) := by
    intro k
    rw [BitVec.getLsbD_shiftLeft]
    by_cases hk : k = i
    · subst hk; simp [h]
    · simp [hk]; omega
  rw [Bool.eq_iff_iff, bne_iff_ne]
  constructor
  · intro h
    by_cases h1 : x.getLsbD i = true
    · exact h1
    · exfalso
      apply h
      apply BitVec.eq_of_getLsbD_eq
      intro k _
      rw [BitVec.getLsbD_and, hm]
      by_cases h2 : k = i
      · subst h2; simp only [Bool.not_eq_true] at h1; rw [h1]; simp
      · simp [h2]
  · intro h1 h2
    have := congrArg (fun b => b.getLsbD i) h2
    simp only [BitVec.getLsbD_and, hm, h1, decide_true, Bool.and_true] at this
    simp at this

theorem bit_of (i k : Nat) (h : k < 32) : (1#32 <<< i).getLsbD k = decide (k = i) := by
  rw [BitVec.getLsbD_shiftLeft]
  by_cases hk : k = i
  · subst hk; simp [h]
  · simp [hk]; omega

/-- the link to the first of a list of free positions -/
def link : List Nat → Int
  | [] => 0
  | i :: _ => (i : Int) + 1

/-- the free positions are chained up -/
def Chain (L : Link T) (items : List T) : List Nat → Prop
  | [] => True
  | i :: r => items[i]? = some (L.setNext L.fresh (link r)) ∧ Chain L items r

theorem link_nonneg (fl : List Nat) : 0 ≤ link fl := by cases fl <;> simp [link] <;> omega

theorem Chain.set {items : List T} {k : Nat} {x : T} : ∀ {fl : List Nat}, Chain L items fl → k ∉ fl → Chain L (items.set k x) fl := by
  intro fl
  induction fl with
  | nil => intro _ _; trivial
  | cons i r ih =>
    intro h hk
    rw [List.mem_cons, not_or] at hk
    exact ⟨by rw [List.getElem?_set_ne (by omega)]; exact h.1, ih h.2 hk.2⟩

theorem Chain.append {items : List T} {x : T} : ∀ {fl : List Nat}, Chain L items fl → Chain L (items ++ [x]) fl := by
  intro fl
  induction fl with
  | nil => intro _; trivial
  | cons i r ih =>
    intro h
    refine ⟨?_, ih h.2⟩
    have : i < items.length := by
      rcases Nat.lt_or_ge i items.length with h' | h'
      · exact h'
      · have h1 := h.1
        rw [List.getElem?_eq_none h'] at h1; cases h1
    rw [List.getElem?_append_left this]; exact h.1

theorem Chain.lt {items : List T} : ∀ {fl : List Nat}, Chain L items fl → ∀ i ∈ fl, i < items.length := by
  intro fl
  induction fl with
  | nil => intro _ i hi; cases hi
  | cons j r ih =>
    intro h i hi
    rcases List.mem_cons.1 hi with rfl | hi
    · rcases Nat.lt_or_ge i items.length with h' | h'
      · exact h'
      · have h1 := h.1
        rw [List.getElem?_eq_none h'] at h1; cases h1
    · exact ih h.2 i hi

/-- what holds of a pool in use; `fl` are its free positions -/
structure Inv (L : Link T) (dbg : Bool) (w : World T) (fl : List Nat) : Prop where
  first : w.pool.first_free = link fl
  chain : Chain L w.pool.items fl
  nodup : fl.Nodup
  slots : (w.live.map (·.1)).Nodup
  pos : ∀ e ∈ w.live, 0 < e.1 ∧ (e.1 - 1).toNat ∉ fl ∧ w.pool.items[(e.1 - 1).toNat]? = some e.2
  total : w.pool.items.length = fl.length + w.live.length
  peak : w.live.length ≤ w.peak ∧ w.pool.items.length = w.peak
  bits : dbg = true → ∀ i < 32, (w.pool.debug.getLsbD i = true ↔ ∃ e ∈ w.live, e.1 = (i : Int) + 1)

theorem Inv.start : Inv L dbg ⟨empty, [], 0, 0⟩ [] where
  first := rfl
  chain := trivial
  nodup := List.nodup_nil
  slots := List.nodup_nil
  pos := by intro e h; cases h
  total := rfl
  peak := ⟨Nat.le_refl _, rfl⟩
  bits := by intro _ i _; simp [empty]

theorem Inv.marked_iff {w : World T} {fl : List Nat} (h : Inv L dbg w fl) (hd : dbg = true) (i : Nat) (hi : i < 32) :
    marked w.pool i = true ↔ ∃ e ∈ w.live, e.1 = (i : Int) + 1 := by
  unfold Pool.marked
  rw [and_bit _ _ hi]
  exact h.bits hd i hi

theorem Inv.get_live {w : World T} {fl : List Nat} (h : Inv L dbg w fl) {slot : Int} {x : T} (hm : (slot, x) ∈ w.live) :
    get dbg w.pool slot = some x := by
  obtain ⟨h1, _, h3⟩ := h.pos _ hm
  simp only at h1 h3
  unfold Pool.get
  rw [if_neg (by omega)]
  dsimp only
  rw [if_neg, h3]
  rintro ⟨hd, hi, hk⟩
  exact hk ((h.marked_iff hd _ hi).2 ⟨_, hm, by simp only; omega⟩)

/-- where a slot is in use there is one entry for it -/
theorem Inv.unique {w : World T} {fl : List Nat} (h : Inv L dbg w fl) {a b : Int × T} (ha : a ∈ w.live) (hb : b ∈ w.live) (e : a.1 = b.1) :
    a = b := by
  obtain ⟨a1, a2⟩ := a
  obtain ⟨b1, b2⟩ := b
  simp only at e; subst e
  have h1 := h.get_live ha
  have h2 := h.get_live hb
  rw [h1] at h2
  cases h2; rfl

theorem nodup_filter_len : ∀ (l : List (Int × T)) (s : Int) (x : T), (l.map (·.1)).Nodup → (s, x) ∈ l →
    (l.filter fun e => decide (e.1 ≠ s)).length + 1 = l.length := by
  intro l s x
  induction l with
  | nil => intro _ h; cases h
  | cons a r ih =>
    intro hn hm
    rw [List.map_cons, List.nodup_cons] at hn
    rcases List.mem_cons.1 hm with h | h
    · subst h
      have : (r.filter fun e => decide (e.1 ≠ s)) = r := by
        rw [List.filter_eq_self]
        intro e he
        simp only [decide_eq_true_eq]
        intro h
        exact hn.1 (List.mem_map.2 ⟨e, he, h⟩)
      rw [List.filter_cons_of_neg (by simp), this]; simp
    · have hne : a.1 ≠ s := fun h' => hn.1 (List.mem_map.2 ⟨(s, x), h, h'.symm⟩)
      rw [List.filter_cons_of_pos (by simpa using hne)]
      simp only [List.length_cons]
      rw [ih hn.2 h]

theorem Inv.step_ok {w : World T} {fl : List Nat} (h : Inv L dbg w fl) (op : Op T) (hf : Fair w op) :
    ∃ w' fl', step L dbg w op = some w' ∧ Inv L dbg w' fl' ∧
      (op = .alloc → (w'.last, L.fresh) ∈ w'.live ∧ (∀ x, (w'.last, x) ∉ w.live) ∧ ∀ i r, fl = i :: r → w'.last = (i : Int) + 1) ∧
      (∀ s, op = .free s → ∃ r, fl' = (s - 1).toNat :: r) := by
  cases op with
  | alloc =>
    cases fl with
    | nil =>
      have hlive : ∀ e ∈ w.live, e.1 ≠ (w.pool.items.length : Int) + 1 := by
        intro e he h1
        obtain ⟨h2, _, h3⟩ := h.pos e he
        rw [List.getElem?_eq_none (by omega)] at h3; cases h3
      have hmk : ¬ (dbg = true ∧ w.pool.items.length < 32 ∧ marked w.pool w.pool.items.length = true) := by
        rintro ⟨hd, hi, hk⟩
        obtain ⟨e, he, h1⟩ := (h.marked_iff hd _ hi).1 hk
        exact hlive e he h1
      have htot : w.pool.items.length = w.live.length := by have := h.total; simpa using this
      let p' : Pool T := { w.pool with items := w.pool.items ++ [L.fresh] }
      have base : ∀ (dbits : BitVec 32), (dbg = true → ∀ i < 32, (dbits.getLsbD i = true ↔ ∃ e ∈ ((w.pool.items.length : Int) + 1, L.fresh) :: w.live, e.1 = (i : Int) + 1)) →
          Inv L dbg ⟨{ p' with debug := dbits }, ((w.pool.items.length : Int) + 1, L.fresh) :: w.live, (w.pool.items.length : Int) + 1, max w.peak (w.live.length + 1)⟩ [] := by
        intro dbits hb
        refine ⟨h.first, trivial, List.nodup_nil, ?_, ?_, ?_, ?_, hb⟩
        · rw [List.map_cons, List.nodup_cons]
          refine ⟨?_, h.slots⟩
          intro hm
          obtain ⟨e, he, h1⟩ := List.mem_map.1 hm
          exact hlive e he h1
        · intro e he
          rcases List.mem_cons.1 he with rfl | he
          · refine ⟨by simp only; omega, by simp, ?_⟩
            show (w.pool.items ++ [L.fresh])[((w.pool.items.length : Int) + 1 - 1).toNat]? = _
            rw [show ((w.pool.items.length : Int) + 1 - 1).toNat = w.pool.items.length by omega]
            simp
          · obtain ⟨h2, h3, h4⟩ := h.pos e he
            refine ⟨h2, h3, ?_⟩
            show (w.pool.items ++ [L.fresh])[(e.1 - 1).toNat]? = _
            have : (e.1 - 1).toNat < w.pool.items.length := by
              rcases Nat.lt_or_ge (e.1 - 1).toNat w.pool.items.length with h' | h'
              · exact h'
              · rw [List.getElem?_eq_none h'] at h4; cases h4
            rw [List.getElem?_append_left this]; exact h4
        · show (w.pool.items ++ [L.fresh]).length = _
          simp; omega
        · have := h.peak
          refine ⟨by simp only [List.length_cons]; omega, ?_⟩
          show (w.pool.items ++ [L.fresh]).length = max w.peak (w.live.length + 1)
          simp; omega
      have hal : alloc L dbg w.pool = allocEnd dbg p' w.pool.items.length := by
        unfold alloc
        have hff : w.pool.first_free = 0 := h.first
        rw [if_neg (by omega), if_neg (by omega)]
      have last : ∀ (w' : World T), w'.last = (w.pool.items.length : Int) + 1 → (w'.last, L.fresh) ∈ w'.live →
          ((Op.alloc : Op T) = .alloc → (w'.last, L.fresh) ∈ w'.live ∧ (∀ x, (w'.last, x) ∉ w.live) ∧ ∀ i r, ([] : List Nat) = i :: r → w'.last = (i : Int) + 1) := by
        intro w' h1 h2 _
        exact ⟨h2, (fun x hx => hlive _ hx h1), (fun i r h => by cases h)⟩
      unfold step
      dsimp only
      rw [hal]
      unfold allocEnd
      by_cases hd : dbg = true ∧ w.pool.items.length < 32
      · rw [if_pos hd, if_neg (show ¬ marked p' _ = true from fun hk => hmk ⟨hd.1, hd.2, hk⟩)]
        refine ⟨_, [], rfl, base _ ?_, last _ rfl (List.mem_cons_self ..), (fun s h => by cases h)⟩
        intro _ i hi
        show (w.pool.debug ||| (1#32 <<< w.pool.items.length)).getLsbD i = true ↔ _
        rw [BitVec.getLsbD_or, bit_of _ _ hi, Bool.or_eq_true, h.bits hd.1 i hi]
        simp only [decide_eq_true_eq, List.mem_cons, exists_eq_or_imp]
        constructor
        · rintro (h1 | h1)
          · exact Or.inr h1
          · left; omega
        · rintro (h1 | h1)
          · right; omega
          · exact Or.inl h1
      · rw [if_neg hd]
        refine ⟨_, [], rfl, base _ ?_, last _ rfl (List.mem_cons_self ..), (fun s h => by cases h)⟩
        intro hd1 i hi
        rw [h.bits hd1 i hi]
        simp only [List.mem_cons, exists_eq_or_imp]
        constructor
        · exact Or.inr
        · rintro (h1 | h1)
          · exfalso; apply hd; exact ⟨hd1, by omega⟩
          · exact h1
    | cons i r =>
      have hc := h.chain
      have hil : i < w.pool.items.length := hc.lt i (List.mem_cons_self ..)
      have hn := List.nodup_cons.1 h.nodup
      have hlive : ∀ e ∈ w.live, e.1 ≠ (i : Int) + 1 := by
        intro e he h1
        obtain ⟨h2, h3, _⟩ := h.pos e he
        apply h3
        rw [show (e.1 - 1).toNat = i by omega]
        exact List.mem_cons_self ..
      have hmk : ¬ (dbg = true ∧ i < 32 ∧ marked w.pool i = true) := by
        rintro ⟨hd, hi, hk⟩
        obtain ⟨e, he, h1⟩ := (h.marked_iff hd _ hi).1 hk
        exact hlive e he h1
      have htot := h.total
      simp only [List.length_cons] at htot
      let p' : Pool T := { w.pool with items := w.pool.items.set i L.fresh, first_free := link r }
      have base : ∀ (dbits : BitVec 32), (dbg = true → ∀ k < 32, (dbits.getLsbD k = true ↔ ∃ e ∈ ((i : Int) + 1, L.fresh) :: w.live, e.1 = (k : Int) + 1)) →
          Inv L dbg ⟨{ p' with debug := dbits }, ((i : Int) + 1, L.fresh) :: w.live, (i : Int) + 1, max w.peak (w.live.length + 1)⟩ r := by
        intro dbits hb
        refine ⟨rfl, hc.2.set hn.1, hn.2, ?_, ?_, ?_, ?_, hb⟩
        · rw [List.map_cons, List.nodup_cons]
          refine ⟨?_, h.slots⟩
          intro hm
          obtain ⟨e, he, h1⟩ := List.mem_map.1 hm
          exact hlive e he h1
        · intro e he
          rcases List.mem_cons.1 he with rfl | he
          · have e1 : ((i : Int) + 1 - 1).toNat = i := by omega
            refine ⟨by simp only; omega, by simp only [e1]; exact hn.1, ?_⟩
            show (w.pool.items.set i L.fresh)[((i : Int) + 1 - 1).toNat]? = _
            rw [e1, List.getElem?_set_self hil]
          · obtain ⟨h2, h3, h4⟩ := h.pos e he
            refine ⟨h2, fun hm => h3 (List.mem_cons_of_mem _ hm), ?_⟩
            show (w.pool.items.set i L.fresh)[(e.1 - 1).toNat]? = _
            rw [List.getElem?_set_ne (by have := hlive e he; omega)]; exact h4
        · show (w.pool.items.set i L.fresh).length = _
          simp; omega
        · have := h.peak
          refine ⟨by simp only [List.length_cons]; omega, ?_⟩
          show (w.pool.items.set i L.fresh).length = max w.peak (w.live.length + 1)
          simp; omega
      have hal : alloc L dbg w.pool = allocEnd dbg p' i := by
        unfold alloc
        have hff : w.pool.first_free = (i : Int) + 1 := h.first
        rw [if_neg (by omega), if_pos (by omega), hff]
        dsimp only
        rw [show ((i : Int) + 1 - 1).toNat = i by omega, hc.1]
        dsimp only
        rw [L.next_set, if_neg (by have := link_nonneg r; omega), L.set_set, L.set_fresh]
      have last : ∀ (w' : World T), w'.last = (i : Int) + 1 → (w'.last, L.fresh) ∈ w'.live →
          ((Op.alloc : Op T) = .alloc → (w'.last, L.fresh) ∈ w'.live ∧ (∀ x, (w'.last, x) ∉ w.live) ∧ ∀ i' r', i :: r = i' :: r' → w'.last = (i' : Int) + 1) := by
        intro w' h1 h2 _
        exact ⟨h2, (fun x hx => hlive _ hx h1), (fun i' r' h => by cases h; exact h1)⟩
      unfold step
      dsimp only
      rw [hal]
      unfold allocEnd
      by_cases hd : dbg = true ∧ i < 32
      · rw [if_pos hd, if_neg (show ¬ marked p' _ = true from fun hk => hmk ⟨hd.1, hd.2, hk⟩)]
        refine ⟨_, r, rfl, base _ ?_, last _ rfl (List.mem_cons_self ..), (fun s h => by cases h)⟩
        intro _ k hk
        show (w.pool.debug ||| (1#32 <<< i)).getLsbD k = true ↔ _
        rw [BitVec.getLsbD_or, bit_of _ _ hk, Bool.or_eq_true, h.bits hd.1 k hk]
        simp only [decide_eq_true_eq, List.mem_cons, exists_eq_or_imp]
        constructor
        · rintro (h1 | h1)
          · exact Or.inr h1
          · left; omega
        · rintro (h1 | h1)
          · right; omega
          · exact Or.inl h1
      · rw [if_neg hd]
        refine ⟨_, r, rfl, base _ ?_, last _ rfl (List.mem_cons_self ..), (fun s h => by cases h)⟩
        intro hd1 k hk
        rw [h.bits hd1 k hk]
        simp only [List.mem_cons, exists_eq_or_imp]
        constructor
        · exact Or.inr
        · rintro (h1 | h1)
          · exfalso; apply hd; exact ⟨hd1, by omega⟩
          · exact h1
  | free slot =>
    obtain ⟨x, hm⟩ := hf
    obtain ⟨h1, h2, h3⟩ := h.pos _ hm
    simp only at h1 h2 h3
    generalize hi : (slot - 1).toNat = i at *
    have hil : i < w.pool.items.length := by
      rcases Nat.lt_or_ge i w.pool.items.length with h' | h'
      · exact h'
      · rw [List.getElem?_eq_none h'] at h3; cases h3
    let p' : Pool T := { w.pool with items := w.pool.items.set i (L.setNext L.fresh w.pool.first_free), first_free := (i : Int) + 1 }
    have hlen := nodup_filter_len w.live slot x h.slots hm
    have htot := h.total
    have base : ∀ (dbits : BitVec 32), (dbg = true → ∀ k < 32, (dbits.getLsbD k = true ↔ ∃ e ∈ (w.live.filter fun e => decide (e.1 ≠ slot)), e.1 = (k : Int) + 1)) →
        Inv L dbg { w with pool := { p' with debug := dbits }, live := w.live.filter fun e => decide (e.1 ≠ slot) } (i :: fl) := by
      intro dbits hb
      refine ⟨rfl, ⟨?_, h.chain.set h2⟩, List.nodup_cons.2 ⟨h2, h.nodup⟩, ?_, ?_, ?_, ?_, hb⟩
      · show (w.pool.items.set i (L.setNext L.fresh w.pool.first_free))[i]? = _
        rw [List.getElem?_set_self hil, h.first]
      · exact List.Sublist.nodup ((List.filter_sublist).map _) h.slots
      · intro e he
        obtain ⟨he1, he2⟩ := List.mem_filter.1 he
        simp only [ne_eq, decide_eq_true_eq] at he2
        obtain ⟨h4, h5, h6⟩ := h.pos e he1
        have hne : (e.1 - 1).toNat ≠ i := by omega
        refine ⟨h4, ?_, ?_⟩
        · rw [List.mem_cons, not_or]; exact ⟨hne, h5⟩
        · show (w.pool.items.set i (L.setNext L.fresh w.pool.first_free))[(e.1 - 1).toNat]? = _
          rw [List.getElem?_set_ne (by omega)]; exact h6
      · show (w.pool.items.set i (L.setNext L.fresh w.pool.first_free)).length = _
        simp only [List.length_set, List.length_cons]
        omega
      · have := h.peak
        refine ⟨by show (w.live.filter fun e => decide (e.1 ≠ slot)).length ≤ w.peak; omega, ?_⟩
        show (w.pool.items.set i (L.setNext L.fresh w.pool.first_free)).length = w.peak
        simp only [List.length_set]; omega
    have hrest : ∀ s, (Op.free slot : Op T) = .free s → ∃ r, i :: fl = (s - 1).toNat :: r := by
      intro s hs; cases hs; exact ⟨fl, by rw [hi]⟩
    unfold step
    dsimp only
    unfold free
    rw [if_neg (by omega)]
    dsimp only
    rw [hi, h3]
    dsimp only
    by_cases hd : dbg = true ∧ i < 32
    · have hk : marked w.pool i = true := (h.marked_iff hd.1 i hd.2).2 ⟨_, hm, by simp only; omega⟩
      rw [if_pos hd, if_neg (by rw [hk]; simp)]
      refine ⟨_, i :: fl, rfl, base _ ?_, (fun h => by cases h), hrest⟩
      intro _ k hk'
      show (w.pool.debug &&& ~~~(1#32 <<< i)).getLsbD k = true ↔ _
      rw [BitVec.getLsbD_and, BitVec.getLsbD_not, bit_of _ _ hk', Bool.and_eq_true, h.bits hd.1 k hk']
      simp only [List.mem_filter, decide_eq_true_eq, Bool.and_eq_true, Bool.not_eq_true', decide_eq_false_iff_not]
      constructor
      · rintro ⟨⟨e, he, h4⟩, _, h5⟩
        exact ⟨e, ⟨he, by omega⟩, h4⟩
      · rintro ⟨e, ⟨he, h5⟩, h4⟩
        have := (h.pos e he).1
        exact ⟨⟨e, he, h4⟩, hk', by omega⟩
    · rw [if_neg hd]
      refine ⟨_, i :: fl, rfl, base _ ?_, (fun h => by cases h), hrest⟩
      intro hd1 k hk'
      show w.pool.debug.getLsbD k = true ↔ _
      rw [h.bits hd1 k hk']
      simp only [List.mem_filter, decide_eq_true_eq]
      constructor
      · rintro ⟨e, he, h4⟩
        refine ⟨e, ⟨he, ?_⟩, h4⟩
        intro h5
        apply hd; exact ⟨hd1, by omega⟩
      · rintro ⟨e, ⟨he, h5⟩, h4⟩
        exact ⟨e, he, h4⟩
  | write slot x =>
    obtain ⟨y, hm⟩ := hf
    have hg := h.get_live hm
    obtain ⟨h1, h2, h3⟩ := h.pos _ hm
    simp only at h1 h2 h3
    have hil : (slot - 1).toNat < w.pool.items.length := by
      rcases Nat.lt_or_ge (slot - 1).toNat w.pool.items.length with h' | h'
      · exact h'
      · rw [List.getElem?_eq_none h'] at h3; cases h3
    have hfst : (w.live.map fun e => if e.1 = slot then (slot, x) else e).map (·.1) = w.live.map (·.1) := by
      rw [List.map_map]
      apply List.map_congr_left
      intro e _
      show (if e.1 = slot then (slot, x) else e).1 = e.1
      by_cases he : e.1 = slot
      · rw [if_pos he, he]
      · rw [if_neg he]
    refine ⟨⟨⟨w.pool.items.set (slot - 1).toNat x, w.pool.first_free, w.pool.debug⟩,
        w.live.map fun e => if e.1 = slot then (slot, x) else e, w.last, w.peak⟩, fl, ?_, ?_, (fun h => by cases h), (fun s h => by cases h)⟩
    · unfold step put
      simp only [hg, Option.map_some]
    · refine ⟨h.first, h.chain.set h2, h.nodup, by rw [hfst]; exact h.slots, ?_, ?_, ?_, ?_⟩
      · intro e he
        obtain ⟨e0, he0, rfl⟩ := List.mem_map.1 he
        obtain ⟨h4, h5, h6⟩ := h.pos e0 he0
        by_cases hs : e0.1 = slot
        · rw [if_pos hs]
          exact ⟨h1, h2, List.getElem?_set_self hil⟩
        · rw [if_neg hs]
          refine ⟨h4, h5, ?_⟩
          show (w.pool.items.set (slot - 1).toNat x)[(e0.1 - 1).toNat]? = _
          rw [List.getElem?_set_ne (by omega)]; exact h6
      · show (w.pool.items.set (slot - 1).toNat x).length = fl.length + (w.live.map _).length
        rw [List.length_set, List.length_map]; exact h.total
      · show (w.live.map _).length ≤ w.peak ∧ (w.pool.items.set (slot - 1).toNat x).length = w.peak
        rw [List.length_set, List.length_map]; exact h.peak
      · intro hd i hi
        show w.pool.debug.getLsbD i = true ↔ _
        rw [h.bits hd i hi]
        have key : ∀ l : List (Int × T), (∃ e ∈ l, e.1 = (i : Int) + 1) ↔ ((i : Int) + 1) ∈ l.map (·.1) := by
          intro l
          rw [List.mem_map]
        rw [key, key, hfst]

theorem Reach.inv {w : World T} (h : Reach L dbg w) : ∃ fl, Inv L dbg w fl := by
  induction h with
  | start => exact ⟨[], Inv.start⟩
  | step op _ hf e ih =>
    obtain ⟨fl, hi⟩ := ih
    obtain ⟨w', fl', e', hi', _⟩ := hi.step_ok op hf
    rw [e] at e'
    cases e'
    exact ⟨fl', hi'⟩

/-- **C38** Every slot in use holds what its user last put there (a fresh item at first), and no two users hold the same
slot. -/
theorem live_kept (w : World T) (h : Reach L dbg w) :
    (∀ slot x, (slot, x) ∈ w.live → get dbg w.pool slot = some x) ∧ (w.live.map (·.1)).Nodup := by
  obtain ⟨fl, hi⟩ := h.inv
  exact ⟨fun slot x hm => hi.get_live hm, hi.slots⟩

/-- **C38** No fair request fails - in particular no debug assertion - and a slot handed out was not in use, is positive, and
holds a fresh item. -/
theorem alloc_disjoint (w : World T) (h : Reach L dbg w) : ∃ p slot, alloc L dbg w.pool = some (p, slot) ∧
    0 < slot ∧ (∀ x, (slot, x) ∉ w.live) ∧ get dbg p slot = some L.fresh := by
  obtain ⟨fl, hi⟩ := h.inv
  obtain ⟨w', fl', e, hi', hl, _⟩ := hi.step_ok .alloc trivial
  obtain ⟨h1, h2, _⟩ := hl rfl
  unfold step at e
  dsimp only at e
  cases ha : alloc L dbg w.pool with
  | none => rw [ha] at e; cases e
  | some r =>
    obtain ⟨p, slot⟩ := r
    rw [ha] at e
    simp only [Option.map_some, Option.some.injEq] at e
    subst e
    exact ⟨p, slot, rfl, (hi'.pos _ h1).1, h2, hi'.get_live h1⟩

/-- **C38** No fair request fails. -/
theorem never_fails (w : World T) (h : Reach L dbg w) (op : Op T) (hf : Fair w op) : ∃ w', step L dbg w op = some w' := by
  obtain ⟨fl, hi⟩ := h.inv
  obtain ⟨w', _, e, _⟩ := hi.step_ok op hf
  exact ⟨w', e⟩

/-- **C38** Freed slots are used before the pool grows: it never holds more items than were ever in use at a time. -/
theorem peak_bound (w : World T) (h : Reach L dbg w) : w.pool.items.length = w.peak := by
  obtain ⟨fl, hi⟩ := h.inv
  exact hi.peak.2

/-- **C38** The slot freed last is the one handed out next. -/
theorem last_freed_first (w w' : World T) (h : Reach L dbg w) (slot : Int) (hf : Fair w (.free slot)) (e : step L dbg w (.free slot) = some w') :
    ∃ p, alloc L dbg w'.pool = some (p, slot) := by
  obtain ⟨fl, hi⟩ := h.inv
  obtain ⟨w1, fl', e', hi', _, hr⟩ := hi.step_ok _ hf
  rw [e] at e'; cases e'
  obtain ⟨r, rfl⟩ := hr slot rfl
  obtain ⟨w2, fl2, e2, hi2, hl, _⟩ := hi'.step_ok .alloc trivial
  obtain ⟨_, _, h3⟩ := hl rfl
  have h4 := h3 _ _ rfl
  obtain ⟨x, hm⟩ := hf
  have h5 := (hi.pos _ hm).1
  simp only at h5
  unfold step at e2
  dsimp only at e2
  cases ha : alloc L dbg w'.pool with
  | none => rw [ha] at e2; cases e2
  | some r =>
    obtain ⟨p, s⟩ := r
    rw [ha] at e2
    simp only [Option.map_some, Option.some.injEq] at e2
    subst e2
    simp only at h4
    exact ⟨p, by rw [show slot = s by omega]⟩

/-! non-vacuity, and why the user must be fair -/

/-- a link as in lib/ev/HTTP.fu:24-27, 35: `WriteBuffer`, with its `cursor` (and `data`) -/
def writeBuffer : Link (Int × Str) where
  next := (·.1)
  setNext t n := (n, t.2)
  fresh := (0, [])
  next_set _ _ := rfl
  set_set _ _ _ := rfl
  set_fresh := rfl

example : ∃ w, Reach writeBuffer true w ∧ w.live = [(2, 7, str "x"), (3, 0, []), (1, 0, [])] ∧ w.pool.items.length = 3 := by
  refine ⟨_, .step (.write 2 (7, str "x")) (.step .alloc (.step (.free 2) (.step .alloc (.step .alloc (.step .alloc .start trivial rfl) trivial rfl) trivial rfl) ?_ rfl)
    trivial rfl) ?_ rfl, rfl, rfl⟩
  · exact ⟨_, List.mem_cons_of_mem _ (List.mem_cons_self ..)⟩
  · exact ⟨_, List.mem_cons_self ..⟩

/-- Freeing a slot twice - not fair - makes the pool hand out one slot twice; the debug check notices. -/
theorem double_free :
    (do let (p, a) ← alloc writeBuffer false empty
        let p ← free writeBuffer false p a
        let p ← free writeBuffer false p a
        let (p, b) ← alloc writeBuffer false p
        let (_, c) ← alloc writeBuffer false p
        some (b, c)) = some (1, 1) ∧
    (do let (p, a) ← alloc writeBuffer true empty
        let p ← free writeBuffer true p a
        free writeBuffer true p a) = none := by
  constructor <;> decide +kernel

end Verif.Pool

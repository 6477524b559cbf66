import Verif.Hotswap
/-! # Replacing functions while the program runs: what is proved -/
namespace Verif.Hotswap

def run (s : St) (evs : List Ev) : St := evs.foldl step s

/-- the functions announced so far, in order: symbol and fallback; the first has slot 0 -/
def announced (s : St) : List Ev → List (Str × Ptr)
  | [] => []
  | .init symbol fallback :: evs =>
    if s.at_ = .out then (symbol, fallback) :: announced (step s (.init symbol fallback)) evs
    else announced (step s (.init symbol fallback)) evs
  | e :: evs => announced (step s e) evs

/-- what the system answers in this event -/
def Ev.answers : Ev → Option (Nat → Sys)
  | .go ys => some ys
  | .signal ys => some ys
  | _ => none

/-! ## The loops -/

theorem fold_slots (y : Sys) (h : Handle) : ∀ (items : List Item) (a : List Ptr × Option Ptr),
    (items.foldl (tryItem y h) a).1.length = a.1.length ∧
    ∀ k, (∀ i ∈ items, i.slot ≠ k) → (items.foldl (tryItem y h) a).1[k]? = a.1[k]? := by
  intro items
  induction items with
  | nil => intro a; exact ⟨rfl, fun _ _ => rfl⟩
  | cons i items ih =>
    intro a
    rw [List.foldl_cons]
    obtain ⟨h1, h2⟩ := ih (tryItem y h a i)
    have hl : (tryItem y h a i).1.length = a.1.length := by unfold tryItem; split <;> simp
    refine ⟨by omega, ?_⟩
    intro k hk
    rw [h2 k (fun j hj => hk j (by simp [hj]))]
    unfold tryItem
    split
    · exact List.getElem?_set_ne (hk i (by simp))
    · rfl

/-- each function announced is replaced if the library has it -/
theorem fold_found (y : Sys) (h : Handle) : ∀ (items : List Item) (a : List Ptr × Option Ptr), (items.map Item.slot).Nodup →
    (∀ i ∈ items, i.slot < a.1.length) → ∀ i ∈ items,
    (items.foldl (tryItem y h) a).1[i.slot]? = ((y.dlsym h i.symbol).map some).getD a.1[i.slot]? := by
  intro items
  induction items with
  | nil => intro a _ _ i hi; cases hi
  | cons j items ih =>
    intro a hd hb i hi
    rw [List.foldl_cons]
    rw [List.map_cons, List.nodup_cons] at hd
    have hl : (tryItem y h a j).1.length = a.1.length := by unfold tryItem; split <;> simp
    rcases List.mem_cons.1 hi with rfl | hi
    · rw [(fold_slots y h items _).2 i.slot (fun k hk e => hd.1 (List.mem_map.2 ⟨k, hk, e⟩))]
      unfold tryItem
      cases e : y.dlsym h i.symbol with
      | none => rfl
      | some p =>
        simp only [Option.map_some, Option.getD_some]
        exact List.getElem?_set_self (hb i (by simp))
    · rw [ih _ hd.2 (fun k hk => by rw [hl]; exact hb k (by simp [hk])) i hi]
      have hne : i.slot ≠ j.slot := fun e => hd.1 (List.mem_map.2 ⟨i, hi, e⟩)
      unfold tryItem
      split
      · rw [List.getElem?_set_ne (Ne.symm hne)]
      · rfl

/-- a property of slots that finding keeps -/
theorem fold_ver (Ver : Str → Ptr → Prop) (y : Sys) (h : Handle) (hy : ∀ h sym p, y.dlsym h sym = some p → Ver sym p)
    (items : List Item) (a : List Ptr × Option Ptr) (names : List Str)
    (ha : ∀ (k : Nat) (sym : Str), names[k]? = some sym → ∃ p, a.1[k]? = some p ∧ Ver sym p)
    (hi : ∀ i ∈ items, names[i.slot]? = some i.symbol) :
    ∀ (k : Nat) (sym : Str), names[k]? = some sym → ∃ p, (items.foldl (tryItem y h) a).1[k]? = some p ∧ Ver sym p := by
  induction items generalizing a with
  | nil => exact ha
  | cons i items ih =>
    rw [List.foldl_cons]
    apply ih
    · intro k sym hk
      unfold tryItem
      cases e : y.dlsym h i.symbol with
      | none => exact ha k sym hk
      | some p =>
        dsimp only
        by_cases hki : i.slot = k
        · subst hki
          obtain ⟨q, hq, -⟩ := ha _ sym hk
          have hs : sym = i.symbol := Option.some.inj (hk.symm.trans (hi i (by simp)))
          subst hs
          have hlt : i.slot < a.1.length := by
            rcases Nat.lt_or_ge i.slot a.1.length with h | h
            · exact h
            · rw [List.getElem?_eq_none h] at hq; cases hq
          exact ⟨p, List.getElem?_set_self hlt, hy _ _ _ e⟩
        · obtain ⟨q, hq, hv⟩ := ha k sym hk
          exact ⟨q, by rw [List.getElem?_set_ne hki]; exact hq, hv⟩
    · intro j hj; exact hi j (by simp [hj])

theorem reloadLibs_len (items : List Item) : ∀ (l : List (Loader × Sys)) (fs : Files) (slots : List Ptr),
    (reloadLibs items l fs slots).2.length = slots.length ∧ (reloadLibs items l fs slots).1.1.length = l.length ∧
    ∀ k, (∀ i ∈ items, i.slot ≠ k) → (reloadLibs items l fs slots).2[k]? = slots[k]? := by
  intro l
  induction l with
  | nil => intro fs slots; exact ⟨rfl, rfl, fun _ _ => rfl⟩
  | cons x l ih =>
    intro fs slots
    obtain ⟨ld, y⟩ := x
    unfold reloadLibs
    dsimp only
    split
    · split
      · rename_i h e
        obtain ⟨h1, h2, h3⟩ := ih (tryLoad y fs ld).2 (items.foldl (tryItem y h) (slots, (tryLoad y fs ld).1.1.dladdr_symbol)).1
        have := fold_slots y h items (slots, (tryLoad y fs ld).1.1.dladdr_symbol)
        refine ⟨h1.trans this.1, by simp [h2], ?_⟩
        intro k hk; rw [h3 k hk, this.2 k hk]
      · obtain ⟨h1, h2, h3⟩ := ih (tryLoad y fs ld).2 slots
        exact ⟨h1, by simp [h2], h3⟩
    · obtain ⟨h1, h2, h3⟩ := ih (tryLoad y fs ld).2 slots
      exact ⟨h1, by simp [h2], h3⟩

theorem reloadLibs_ver (Ver : Str → Ptr → Prop) (items : List Item) (names : List Str) (hi : ∀ i ∈ items, names[i.slot]? = some i.symbol) :
    ∀ (l : List (Loader × Sys)) (fs : Files) (slots : List Ptr),
    (∀ x ∈ l, ∀ h sym p, x.2.dlsym h sym = some p → Ver sym p) →
    (∀ (k : Nat) (sym : Str), names[k]? = some sym → ∃ p, slots[k]? = some p ∧ Ver sym p) →
    ∀ (k : Nat) (sym : Str), names[k]? = some sym → ∃ p, (reloadLibs items l fs slots).2[k]? = some p ∧ Ver sym p := by
  intro l
  induction l with
  | nil => intro fs slots _ h; exact h
  | cons x l ih =>
    intro fs slots hl h
    obtain ⟨ld, y⟩ := x
    unfold reloadLibs
    dsimp only
    have hl' : ∀ x ∈ l, ∀ h sym p, x.2.dlsym h sym = some p → Ver sym p := fun x hx => hl x (by simp [hx])
    split
    · split
      · rename_i hd e
        exact ih _ _ hl' (fold_ver Ver y hd (hl (ld, y) (by simp)) items _ names h hi)
      · exact ih _ _ hl' h
    · exact ih _ _ hl' h

/-! ## A function is never lost: its slot holds its fallback or something the system found under its name -/

structure Inv (Ver : Str → Ptr → Prop) (names : List Str) (s : St) : Prop where
  len : s.slots.length = names.length
  ver : ∀ (k : Nat) (sym : Str), names[k]? = some sym → ∃ p, s.slots[k]? = some p ∧ Ver sym p
  items : ∀ i ∈ s.items, names[i.slot]? = some i.symbol
  nodup : (s.items.map Item.slot).Nodup

theorem Inv.doReload {Ver : Str → Ptr → Prop} {names : List Str} {s : St} (h : Inv Ver names s) (ys : Nat → Sys)
    (hy : ∀ k h sym p, (ys k).dlsym h sym = some p → Ver sym p) : Inv Ver names (Hotswap.doReload ys s) := by
  unfold Hotswap.doReload
  refine ⟨?_, ?_, h.items, h.nodup⟩
  · exact (reloadLibs_len s.items _ s.files s.slots).1.trans h.len
  · apply reloadLibs_ver Ver s.items names h.items
    · intro x hx
      obtain ⟨p, -, rfl⟩ := List.mem_map.1 hx
      exact hy _
    · exact h.ver

theorem Inv.step {Ver : Str → Ptr → Prop} {names : List Str} {s : St} (h : Inv Ver names s) (e : Ev)
    (hy : ∀ ys, e.answers = some ys → ∀ k h sym p, (ys k).dlsym h sym = some p → Ver sym p)
    (hi : ∀ sym fb, e = .init sym fb → Ver sym fb) :
    Inv Ver (names ++ (announced s [e]).map (·.1)) (Hotswap.step s e) := by
  cases e with
  | init sym fb =>
    by_cases ho : s.at_ = .out
    · simp only [announced, Hotswap.step, if_pos ho, List.map_cons, List.map_nil]
      have key : Inv Ver (names ++ [sym]) { s with slots := s.slots ++ [fb] } := by
        refine ⟨by simp [h.len], ?_, ?_, h.nodup⟩
        · intro k n hk
          rcases Nat.lt_or_ge k names.length with hlt | hge
          · rw [List.getElem?_append_left hlt] at hk
            obtain ⟨p, hp, hv⟩ := h.ver k n hk
            exact ⟨p, by rw [List.getElem?_append_left (by rw [h.len]; exact hlt)]; exact hp, hv⟩
          · rw [List.getElem?_append_right hge] at hk
            have : k - names.length = 0 := by
              rcases Nat.eq_zero_or_pos (k - names.length) with h | h
              · exact h
              · rw [List.getElem?_eq_none (show [sym].length ≤ k - names.length from h)] at hk; cases hk
            rw [this] at hk
            have hn : sym = n := by simpa using hk
            subst hn
            exact ⟨fb, by rw [List.getElem?_append_right (by rw [h.len]; exact hge), h.len, this]; rfl, hi sym fb rfl⟩
        · intro i hi'
          have := h.items i hi'
          rw [List.getElem?_append_left]
          · exact this
          · rcases Nat.lt_or_ge i.slot names.length with hlt | hge
            · exact hlt
            · rw [List.getElem?_eq_none hge] at this; cases this
      unfold init
      by_cases hr : s.reloading
      · rw [if_pos hr]; exact key
      · rw [if_neg hr]
        refine ⟨key.len, key.ver, ?_, ?_⟩
        · intro i hi'
          rcases List.mem_append.1 hi' with hi' | hi'
          · exact key.items i hi'
          · have : i = ⟨sym, s.slots.length⟩ := by simpa using hi'
            subst this
            rw [List.getElem?_append_right (by rw [h.len]; exact Nat.le_refl _), h.len, Nat.sub_self]; rfl
        · simp only [List.map_append, List.map_cons, List.map_nil]
          rw [List.nodup_append]
          refine ⟨h.nodup, by simp, ?_⟩
          intro a ha b hb
          obtain ⟨i, hi', rfl⟩ := List.mem_map.1 ha
          have := h.items i hi'
          have hb' : b = s.slots.length := by simpa using hb
          intro he
          rw [he, hb', h.len, List.getElem?_eq_none (Nat.le_refl _)] at this
          cases this
    · simp only [announced, Hotswap.step, if_neg ho, List.map_nil, List.append_nil]
      exact h
  | here =>
    simp only [announced, Hotswap.step, List.map_nil, List.append_nil]
    split
    · exact ⟨h.len, h.ver, h.items, h.nodup⟩
    · exact h
  | go ys =>
    simp only [announced, Hotswap.step, List.map_nil, List.append_nil]
    unfold go
    split
    · exact h
    · split <;> exact ⟨h.len, h.ver, h.items, h.nodup⟩
    · exact ⟨h.len, h.ver, h.items, h.nodup⟩
    · have := h.doReload ys (hy ys rfl)
      exact ⟨this.len, this.ver, this.items, this.nodup⟩
    · exact ⟨h.len, h.ver, h.items, h.nodup⟩
  | signal ys =>
    simp only [announced, Hotswap.step, List.map_nil, List.append_nil]
    unfold onSignal
    have key : Inv Ver names (if s.manual then { s with signalled := true } else Hotswap.doReload ys s) := by
      split
      · exact ⟨h.len, h.ver, h.items, h.nodup⟩
      · exact h.doReload ys (hy ys rfl)
    generalize (if s.manual then { s with signalled := true } else Hotswap.doReload ys s) = t at key
    unfold callBack
    cases t.cb with
    | none => exact key
    | some u => exact ⟨key.len, key.ver, key.items, key.nodup⟩
  | cbAdd u => simp only [announced, Hotswap.step, List.map_nil, List.append_nil]; exact ⟨h.len, h.ver, h.items, h.nodup⟩
  | cbRemove => simp only [announced, Hotswap.step, List.map_nil, List.append_nil]; exact ⟨h.len, h.ver, h.items, h.nodup⟩
  | build fs => simp only [announced, Hotswap.step, List.map_nil, List.append_nil]; exact ⟨h.len, h.ver, h.items, h.nodup⟩

theorem announced_cons (s : St) (e : Ev) (evs : List Ev) : announced s (e :: evs) = announced s [e] ++ announced (step s e) evs := by
  cases e <;> simp only [announced, List.nil_append]
  split <;> simp

theorem Inv.run {Ver : Str → Ptr → Prop} : ∀ (evs : List Ev) {names : List Str} {s : St}, Inv Ver names s →
    (∀ e ∈ evs, ∀ ys, e.answers = some ys → ∀ k h sym p, (ys k).dlsym h sym = some p → Ver sym p) →
    (∀ e ∈ evs, ∀ sym fb, e = .init sym fb → Ver sym fb) →
    Inv Ver (names ++ (announced s evs).map (·.1)) (Hotswap.run s evs) := by
  intro evs
  induction evs with
  | nil => intro names s h _ _; simpa [announced, Hotswap.run] using h
  | cons e evs ih =>
    intro names s h hy hi
    have := ih (h.step e (hy e (by simp)) (hi e (by simp))) (fun e he => hy e (by simp [he])) (fun e he => hi e (by simp [he]))
    rw [announced_cons, List.map_append, ← List.append_assoc]
    exact this

/-- **A function announced can always be called**: whatever happens, in whatever order, its slot holds an address that is its
fallback or was found under its name in a library — in short, whatever is true of all fallbacks of a name and of all the system finds
under it is true of what the slot holds. It is never null, and never another function's. -/
theorem slots_valid (Ver : Str → Ptr → Prop) (name : Str) (files : Files) (evs : List Ev)
    (hy : ∀ e ∈ evs, ∀ ys, e.answers = some ys → ∀ k h sym p, (ys k).dlsym h sym = some p → Ver sym p)
    (hi : ∀ e ∈ evs, ∀ sym fb, e = .init sym fb → Ver sym fb) :
    ∀ (k : Nat) (sym : Str) (fb : Ptr), (announced (start name files) evs)[k]? = some (sym, fb) →
      ∃ p, (run (start name files) evs).slots[k]? = some p ∧ Ver sym p := by
  intro k sym fb h
  have := Inv.run (names := []) evs (s := start name files) ⟨rfl, (by intro k s h; cases h), (by intro i hi; cases hi), List.nodup_nil⟩ hy hi
  exact this.ver k sym (by rw [List.nil_append, List.getElem?_map, h]; rfl)

/-! ## Manual mode -/

theorem manual_stays (s : St) (e : Ev) (h : s.manual = true) : (step s e).manual = true := by
  cases e <;> simp only [step]
  case init => split; unfold init; split <;> exact h; exact h
  case here => split; rfl; exact h
  case go ys => unfold go; split; exact h; split <;> exact h; exact h; exact h; exact h
  case signal ys => unfold onSignal callBack; simp only [h, if_true]; cases s.cb <;> rfl
  all_goals exact h

/-- in manual mode nothing but `here` replaces anything: a signal changes no slot, no library and no file -/
theorem signal_waits (s : St) (ys : Nat → Sys) (h : s.manual = true) :
    (step s (.signal ys)).slots = s.slots ∧ (step s (.signal ys)).libs = s.libs ∧ (step s (.signal ys)).files = s.files ∧
    (step s (.signal ys)).signalled = true ∧ (step s (.signal ys)).reloads = s.reloads := by
  simp only [step, onSignal, callBack, h, if_true]
  cases s.cb <;> exact ⟨rfl, rfl, rfl, rfl, rfl⟩

/-- without a signal since the last time, `here` does nothing (but that it makes the mode manual) -/
theorem here_idle (s : St) (ys : Nat → Sys) (ho : s.at_ = .out) (h : s.signalled = false) :
    run s [.here, .go ys] = { s with manual := true } := by
  obtain ⟨r, m, g, cb, libs, items, slots, files, a, calls, n⟩ := s
  simp only at ho h
  subst ho; subst h
  rfl

/-- after a signal in manual mode, `here` reloads -/
theorem here_reloads (s : St) (a b ys : Nat → Sys) (ho : s.at_ = .out) (h : s.signalled = true) :
    run s [.here, .go a, .go b, .go ys, .go a] = { doReload ys { s with manual := true, signalled := false } with at_ := .out } := by
  obtain ⟨r, m, g, cb, libs, items, slots, files, a, calls, n⟩ := s
  simp only at ho h
  subst ho; subst h
  rfl

theorem reloads_mono (s : St) (e : Ev) : s.reloads ≤ (step s e).reloads := by
  cases e <;> simp only [step]
  case init => split; unfold init; split <;> exact Nat.le_refl _; exact Nat.le_refl _
  case here => split <;> exact Nat.le_refl _
  case go ys =>
    unfold go; split; exact Nat.le_refl _; split <;> exact Nat.le_refl _; exact Nat.le_refl _; exact Nat.le_succ _; exact Nat.le_refl _
  case signal ys =>
    have e : ∀ t : St, (callBack t).reloads = t.reloads := by intro t; unfold callBack; cases t.cb <;> rfl
    unfold onSignal
    rw [e]
    by_cases h : s.manual
    · rw [if_pos h]; exact Nat.le_refl _
    · rw [if_neg h]; exact Nat.le_succ _
  all_goals exact Nat.le_refl _

/-- a signal is remembered until a reload begins -/
def Pending (n : Nat) (s : St) : Prop := n < s.reloads ∨ s.at_ = .reload ∨ s.signalled = true

theorem Pending.step {n : Nat} {s : St} (h : Pending n s) (hn : n ≤ s.reloads) (hm : s.manual = true) (e : Ev) : Pending n (step s e) := by
  have mono := reloads_mono s e
  rcases h with h | h | h
  · exact .inl (Nat.lt_of_lt_of_le h mono)
  · cases e <;> simp only [Hotswap.step]
    case init => rw [if_neg (by rw [h]; decide)]; exact .inr (.inl h)
    case here => rw [if_neg (by rw [h]; decide)]; exact .inr (.inl h)
    case go ys => unfold go; rw [h]; exact .inl (Nat.lt_succ_of_le hn)
    case signal ys => unfold onSignal callBack; simp only [hm, if_true]; cases s.cb <;> exact .inr (.inr rfl)
    all_goals exact .inr (.inl h)
  · cases e <;> simp only [Hotswap.step]
    case init => split; unfold init; split <;> exact .inr (.inr h); exact .inr (.inr h)
    case here => split <;> exact .inr (.inr h)
    case go ys =>
      unfold go
      split
      · exact .inr (.inr h)
      · split <;> exact .inr (.inr h)
      · exact .inr (.inl rfl)
      · exact .inl (Nat.lt_succ_of_le hn)
      · exact .inr (.inr h)
    case signal ys => unfold onSignal callBack; simp only [hm, if_true]; cases s.cb <;> exact .inr (.inr rfl)
    all_goals exact .inr (.inr h)

theorem Pending.run {n : Nat} : ∀ (evs : List Ev) {s : St}, Pending n s → n ≤ s.reloads → s.manual = true →
    Pending n (run s evs) ∧ n ≤ (run s evs).reloads ∧ (run s evs).manual = true := by
  intro evs
  induction evs with
  | nil => intro s h hn hm; exact ⟨h, hn, hm⟩
  | cons e evs ih =>
    intro s h hn hm
    exact ih (h.step hn hm e) (Nat.le_trans hn (reloads_mono s e)) (manual_stays s e hm)

/-- the same while `here` is under way -/
def Coming (n : Nat) (s : St) : Prop := n < s.reloads ∨ s.at_ = .reload ∨ (s.signalled = true ∧ (s.at_ = .test ∨ s.at_ = .clear))

theorem Coming.step {n : Nat} {s : St} (h : Coming n s) (hn : n ≤ s.reloads) (hm : s.manual = true) (e : Ev) : Coming n (step s e) := by
  have mono := reloads_mono s e
  rcases h with h | h | ⟨h, ha⟩
  · exact .inl (Nat.lt_of_lt_of_le h mono)
  · cases e <;> simp only [Hotswap.step]
    case init => rw [if_neg (by rw [h]; decide)]; exact .inr (.inl h)
    case here => rw [if_neg (by rw [h]; decide)]; exact .inr (.inl h)
    case go ys => unfold go; rw [h]; exact .inl (Nat.lt_succ_of_le hn)
    case signal ys => unfold onSignal callBack; simp only [hm, if_true]; cases s.cb <;> exact .inr (.inl h)
    all_goals exact .inr (.inl h)
  · have hne : s.at_ ≠ .out := by rcases ha with ha | ha <;> rw [ha] <;> decide
    cases e <;> simp only [Hotswap.step]
    case init => rw [if_neg hne]; exact .inr (.inr ⟨h, ha⟩)
    case here => rw [if_neg hne]; exact .inr (.inr ⟨h, ha⟩)
    case go ys =>
      unfold go
      rcases ha with ha | ha
      · rw [ha]; simp only [h, if_true]; exact .inr (.inr ⟨rfl, .inr rfl⟩)
      · rw [ha]; exact .inr (.inl rfl)
    case signal ys => unfold onSignal callBack; simp only [hm, if_true]; cases s.cb <;> exact .inr (.inr ⟨rfl, ha⟩)
    all_goals exact .inr (.inr ⟨h, ha⟩)

theorem Coming.run {n : Nat} : ∀ (evs : List Ev) {s : St}, Coming n s → n ≤ s.reloads → s.manual = true → Coming n (run s evs) := by
  intro evs
  induction evs with
  | nil => intro s h _ _; exact h
  | cons e evs ih =>
    intro s h hn hm
    exact ih (h.step hn hm e) (Nat.le_trans hn (reloads_mono s e)) (manual_stays s e hm)

/-- **No signal is lost.** In manual mode, after a signal at any point — also in the middle of `here` — if a call of `here` begins and
is over later, whatever else happens meanwhile, then a reload began after the signal. -/
theorem signal_not_lost (s : St) (ys : Nat → Sys) (a b : List Ev) (hm : s.manual = true)
    (begins : (run (step s (.signal ys)) a).at_ = .out)
    (over : (run (step (run (step s (.signal ys)) a) .here) b).at_ = .out) :
    s.reloads < (run (step (run (step s (.signal ys)) a) .here) b).reloads := by
  obtain ⟨-, -, -, hs, hr⟩ := signal_waits s ys hm
  obtain ⟨hp, hn, hm'⟩ := Pending.run (n := s.reloads) a (s := step s (.signal ys)) (.inr (.inr hs)) (by omega) (manual_stays s _ hm)
  generalize run (step s (.signal ys)) a = t at *
  have hc : Coming s.reloads (step t .here) := by
    simp only [Hotswap.step, if_pos begins]
    rcases hp with h | h | h
    · exact .inl h
    · rw [begins] at h; cases h
    · exact .inr (.inr ⟨h, .inl rfl⟩)
  have := hc.run b (Nat.le_trans hn (reloads_mono t _)) (manual_stays t _ hm')
  rcases this with h | h | ⟨-, h | h⟩
  · exact h
  all_goals (rw [over] at h; cases h)

/-- the callback is called once for each signal -/
theorem signal_calls (s : St) (ys : Nat → Sys) : (step s (.signal ys)).calls = s.calls ++ s.cb.toList ∧ (step s (.signal ys)).cb = s.cb := by
  have e : ∀ t : St, (callBack t).calls = t.calls ++ t.cb.toList ∧ (callBack t).cb = t.cb := by
    intro t
    unfold callBack
    cases h : t.cb with
    | none => simp [h]
    | some u => simp [h]
  simp only [step, onSignal]
  rw [(e _).1, (e _).2]
  by_cases h : s.manual
  · rw [if_pos h]; exact ⟨rfl, rfl⟩
  · rw [if_neg h]; exact ⟨rfl, rfl⟩

end Verif.Hotswap

import Verif.Mkdir
/-! # C100: making directories -/
namespace Verif.Mkdir

/-! ### specification -/

/-- every directory is in one -/
def Closed (fs : Fs) : Prop := ∀ d ∈ fs, There fs d.dropLast

/-! ### names -/

theorem namesFrom_slash (a : Str) : ∀ (acc b : Str), namesFrom acc (a ++ ch '/' :: b) = namesFrom acc a ++ namesFrom [] b := by
  induction a with
  | nil =>
    intro acc b
    simp only [List.nil_append, namesFrom, if_true]
    by_cases h : acc = [] <;> simp [h]
  | cons c a ih =>
    intro acc b
    simp only [List.cons_append, namesFrom]
    by_cases hc : c = ch '/'
    · simp only [if_pos hc]
      by_cases h : acc = []
      · simp only [if_pos h]; exact ih [] b
      · simp only [if_neg h, List.cons_append]; rw [ih [] b]
    · simp only [if_neg hc]; exact ih _ b

theorem namesFrom_plain (b : Str) (h : ch '/' ∉ b) : ∀ acc, namesFrom acc b = if acc ++ b = [] then [] else [acc ++ b] := by
  induction b with
  | nil => intro acc; simp [namesFrom]
  | cons c b ih =>
    intro acc
    rw [namesFrom, if_neg (by rintro rfl; exact h (by simp)), ih (fun m => h (by simp [m]))]
    simp

theorem names_slash (a b : Str) (h : ch '/' ∉ b) : names (a ++ ch '/' :: b) = names a ++ (if b = [] then [] else [b]) := by
  unfold names; rw [namesFrom_slash, namesFrom_plain b h]; simp

theorem names_plain (b : Str) (h : ch '/' ∉ b) : names b = if b = [] then [] else [b] := by
  unfold names; rw [namesFrom_plain b h]; simp

theorem dir_slash (E : Env) (a b : Str) (ha : a ≠ []) (h : ch '/' ∉ b) :
    E.dir (a ++ ch '/' :: b) = E.dir a ++ (if b = [] then [] else [b]) := by
  unfold Env.dir
  rw [names_slash a b h]
  cases a with
  | nil => exact absurd rfl ha
  | cons c a =>
    have hh : ((c :: a) ++ ch '/' :: b).head? = (c :: a).head? := rfl
    by_cases hc : (c :: a).head? = some (ch '/')
    · rw [if_pos (hh.trans hc), if_pos hc]
    · rw [if_neg (fun h => hc (hh.symm.trans h)), if_neg hc, List.append_assoc]

/-! ### the buffer -/

theorem cstr_take (buf : Str) (N : Nat) (hN : N < buf.length) (h : (0 : Byte) ∉ buf.take N) : cstr (buf.set N 0) = buf.take N := by
  unfold cstr
  have e : buf.set N 0 = buf.take N ++ 0 :: buf.drop (N + 1) := by rw [List.set_eq_take_append_cons_drop, if_pos hN]
  rw [e, List.takeWhile_append_of_pos (by intro x hx; simp; rintro rfl; exact h hx)]
  simp

theorem lastSlash_some (buf : Str) : ∀ N i, lastSlash buf N = some i → 1 ≤ i ∧ i < N ∧ buf[i]? = some (ch '/') ∧
    ∀ j, i < j → j < N → buf[j]? ≠ some (ch '/') := by
  intro N
  induction N with
  | zero => intro i h; cases h
  | succ n ih =>
    intro i h
    unfold lastSlash at h
    split at h
    · cases h
    · split at h
      · rename_i h1 h2
        cases h
        exact ⟨by omega, by omega, h2, fun j h3 h4 => by omega⟩
      · rename_i h1 h2
        obtain ⟨a, b, c, d⟩ := ih i h
        refine ⟨a, by omega, c, fun j h3 h4 => ?_⟩
        by_cases hj : j = n
        · subst hj; exact h2
        · exact d j h3 (by omega)

theorem lastSlash_none (buf : Str) : ∀ N, lastSlash buf N = none → ∀ j, 1 ≤ j → j < N → buf[j]? ≠ some (ch '/') := by
  intro N
  induction N with
  | zero => intro _ j _ h; omega
  | succ n ih =>
    intro h j h1 h2
    unfold lastSlash at h
    split at h
    · omega
    · split at h
      · cases h
      · rename_i h3 h4
        by_cases hj : j = n
        · subst hj; exact h4
        · exact ih h j h1 (by omega)

/-- the bytes of a path, cut at its last slash -/
theorem cut_last (s : Str) (i : Nat) (hi : i < s.length) (hs : s[i]? = some (ch '/'))
    (hn : ∀ j, i < j → j < s.length → s[j]? ≠ some (ch '/')) :
    ∃ b, s = s.take i ++ ch '/' :: b ∧ ch '/' ∉ b := by
  have hg : s[i] = ch '/' := by rw [List.getElem?_eq_getElem hi] at hs; exact Option.some.inj hs
  refine ⟨s.drop (i + 1), ?_, ?_⟩
  · rw [← hg]; simp
  · intro hm
    obtain ⟨j, hj, e⟩ := List.getElem_of_mem hm
    rw [List.length_drop] at hj
    rw [List.getElem_drop] at e
    refine hn (i + 1 + j) (by omega) (by omega) ?_
    rw [List.getElem?_eq_getElem (by omega), e]

/-! ### what `visit` does, without the buffer -/

/-- `visit` restores the buffer, and what it does depends only on the path up to `N` -/
theorem visit_eq (E : Env) (N : Nat) : ∀ (buf : Str) (fs : Fs), N < buf.length → buf[N]? = some (ch '/') → (0 : Byte) ∉ buf.take N →
    (visit E buf fs N).2.1 = buf ∧
    ((mkdir E fs (buf.take N)).1 ≠ ENOENT →
      (visit E buf fs N).1 = (mkdir E fs (buf.take N)).1 ∧ (visit E buf fs N).2.2 = (mkdir E fs (buf.take N)).2) ∧
    ((mkdir E fs (buf.take N)).1 = ENOENT →
      ((∀ j, 1 ≤ j → j < N → buf[j]? ≠ some (ch '/')) → (visit E buf fs N).1 = ENOENT ∧ (visit E buf fs N).2.2 = fs) ∧
      ∀ i, 1 ≤ i → i < N → buf[i]? = some (ch '/') → (∀ j, i < j → j < N → buf[j]? ≠ some (ch '/')) →
        (visit E buf fs N).1 = (if (visit E buf fs i).1 = 0 then
            (if (mkdir E (visit E buf fs i).2.2 (buf.take N)).1 ≠ 0 then (mkdir E (visit E buf fs i).2.2 (buf.take N)).1 else ENOENT)
          else ENOENT) ∧
        (visit E buf fs N).2.2 = (if (visit E buf fs i).1 = 0 then (mkdir E (visit E buf fs i).2.2 (buf.take N)).2
          else (visit E buf fs i).2.2)) := by
  induction N using Nat.strongRecOn with
  | ind N ih =>
    intro buf fs hN hs h0
    have hg : buf[N] = ch '/' := by rw [List.getElem?_eq_getElem hN] at hs; exact Option.some.inj hs
    have hset : ∀ b : Byte, (buf.set N b).set N (ch '/') = buf := by
      intro b; rw [List.set_set, ← hg, List.set_getElem_self]
    have hc := cstr_take buf N hN h0
    have hsame : (mkdir E fs (buf.take N)).1 = ENOENT → (mkdir E fs (buf.take N)).2 = fs := by
      intro h
      unfold mkdir at h ⊢
      repeat' split
      all_goals first | rfl | skip
      rename_i h1 h2 h3 _ h4
      rw [if_neg h1, if_neg h2, if_neg h3, h4] at h
      exact absurd h (show ¬ (0 : Nat) = ENOENT by decide)
    rw [visit]
    dsimp only
    rw [hc]
    by_cases hE : (mkdir E fs (buf.take N)).1 = ENOENT
    · rw [if_pos hE]
      have hfs := hsame hE
      have idx : ∀ j, j < N → (buf.set N 0)[j]? = buf[j]? := fun j hj => List.getElem?_set_ne (by omega)
      split
      · rename_i hl
        have hno := lastSlash_none _ _ hl
        refine ⟨hset 0, fun h => absurd hE h, fun _ => ⟨fun _ => ⟨hE, hfs⟩, fun i h1 h2 h3 _ => ?_⟩⟩
        exact absurd (by rw [idx i h2]; exact h3) (hno i h1 h2)
      · rename_i i hl
        obtain ⟨h1, h2, h3, h4⟩ := lastSlash_some _ _ _ hl
        rw [idx i h2] at h3
        have ht : (buf.set N 0).take i = buf.take i := List.take_set_of_le (by omega)
        have h0i : (0 : Byte) ∉ buf.take i := fun hm => h0 (by
          have : buf.take i = (buf.take N).take i := by rw [List.take_take, Nat.min_eq_left (by omega)]
          rw [this] at hm; exact List.mem_of_mem_take hm)
        have A := ih i h2 (buf.set N 0) fs (by rw [List.length_set]; omega) (by rw [idx i h2]; exact h3) (by rw [ht]; exact h0i)
        have B := ih i h2 buf fs (by omega) h3 h0i
        -- the two buffers agree before `i`
        have agree : (visit E (buf.set N 0) fs i).1 = (visit E buf fs i).1 ∧
            (visit E (buf.set N 0) fs i).2.2 = (visit E buf fs i).2.2 := by
          have gen : ∀ M, M < N → ∀ fs, buf[M]? = some (ch '/') → (visit E (buf.set N 0) fs M).1 = (visit E buf fs M).1 ∧
              (visit E (buf.set N 0) fs M).2.2 = (visit E buf fs M).2.2 := by
            intro M
            induction M using Nat.strongRecOn with
            | ind M ihM =>
              intro hMN fs hM
              have htM : (buf.set N 0).take M = buf.take M := List.take_set_of_le (by omega)
              have h0M : (0 : Byte) ∉ buf.take M := fun hm => h0 (by
                have : buf.take M = (buf.take N).take M := by rw [List.take_take, Nat.min_eq_left (by omega)]
                rw [this] at hm; exact List.mem_of_mem_take hm)
              obtain ⟨-, a1, a2⟩ := ih M hMN (buf.set N 0) fs (by rw [List.length_set]; omega) (by rw [idx M hMN]; exact hM) (by rw [htM]; exact h0M)
              obtain ⟨-, b1, b2⟩ := ih M hMN buf fs (by omega) hM h0M
              rw [htM] at a1 a2
              by_cases hEM : (mkdir E fs (buf.take M)).1 = ENOENT
              · cases hl : lastSlash buf M with
                | none =>
                  have hno := lastSlash_none _ _ hl
                  have x := (a2 hEM).1 (fun j q1 q2 => by rw [idx j (by omega)]; exact hno j q1 q2)
                  have y := (b2 hEM).1 hno
                  exact ⟨x.1.trans y.1.symm, x.2.trans y.2.symm⟩
                | some k =>
                  obtain ⟨k1, k2, k3, k4⟩ := lastSlash_some _ _ _ hl
                  have x := (a2 hEM).2 k k1 k2 (by rw [idx k (by omega)]; exact k3) (fun j q1 q2 => by rw [idx j (by omega)]; exact k4 j q1 q2)
                  have y := (b2 hEM).2 k k1 k2 k3 k4
                  obtain ⟨c1, c2⟩ := ihM k k2 (by omega) fs k3
                  rw [c1, c2] at x
                  exact ⟨x.1.trans y.1.symm, x.2.trans y.2.symm⟩
              · have x := a1 hEM
                have y := b1 hEM
                exact ⟨x.1.trans y.1.symm, x.2.trans y.2.symm⟩
          exact gen i h2 fs h3
        rw [hfs, A.1, agree.1, agree.2, hc]
        have uniq : ∀ i', 1 ≤ i' → i' < N → buf[i']? = some (ch '/') → (∀ j, i' < j → j < N → buf[j]? ≠ some (ch '/')) → i' = i := by
          intro i' q1 q2 q3 q4
          rcases Nat.lt_trichotomy i' i with q | q | q
          · exact absurd h3 (q4 i q h2)
          · exact q
          · exact absurd q3 (by rw [← idx i' q2]; exact h4 i' q q2)
        by_cases hz : (visit E buf fs i).1 = 0
        · rw [if_pos hz]
          dsimp only
          refine ⟨hset 0, fun h => absurd hE h, fun _ => ⟨fun hno => absurd h3 (hno i h1 h2), fun i' q1 q2 q3 q4 => ?_⟩⟩
          obtain rfl := uniq i' q1 q2 q3 q4
          rw [if_pos hz, if_pos hz, hE]; exact ⟨rfl, rfl⟩
        · rw [if_neg hz]
          dsimp only
          refine ⟨hset 0, fun h => absurd hE h, fun _ => ⟨fun hno => absurd h3 (hno i h1 h2), fun i' q1 q2 q3 q4 => ?_⟩⟩
          obtain rfl := uniq i' q1 q2 q3 q4
          rw [if_neg hz, if_neg hz, hE]; exact ⟨rfl, rfl⟩
    · rw [if_neg hE]
      exact ⟨hset 0, fun _ => ⟨rfl, rfl⟩, fun h => absurd h hE⟩

/-! ### the results -/

theorem mkdir_there {E : Env} {fs : Fs} {p : Str} (hp : p ≠ []) (h : There fs (E.dir p)) : mkdir E fs p = (EEXIST, fs) := by
  unfold mkdir; rw [if_neg hp, if_pos h]

theorem mkdir_noent {E : Env} {fs : Fs} {p : Str} (hp : p ≠ []) (h : ¬ There fs (E.dir p)) (h2 : ¬ There fs (E.dir p).dropLast) :
    mkdir E fs p = (ENOENT, fs) := by
  unfold mkdir; rw [if_neg hp, if_neg h, if_pos h2]

theorem mkdir_new {E : Env} {fs : Fs} {p : Str} (hp : p ≠ []) (h : ¬ There fs (E.dir p)) (h2 : There fs (E.dir p).dropLast)
    (h3 : E.deny (E.dir p) = none) : mkdir E fs p = (0, fs ++ [E.dir p]) := by
  unfold mkdir; rw [if_neg hp, if_neg h, if_neg (by simpa using h2), h3]

/-- what is not there has nothing in it -/
theorem above {fs : Fs} (hc : Closed fs) (d : List Str) : ∀ (n : Nat) (r : List Str), r.length = n → ¬ There fs d → ¬ There fs (d ++ r) := by
  intro n
  induction n with
  | zero => intro r hr h; have := List.eq_nil_of_length_eq_zero hr; subst this; simpa using h
  | succ n ih =>
    intro r hr h ht
    have hne : r ≠ [] := by intro e; subst e; simp at hr
    have e : (d ++ r).dropLast = d ++ r.dropLast := List.dropLast_append_of_ne_nil hne
    have : There fs (d ++ r.dropLast) := by
      rcases ht with ht | ht
      · simp at ht; exact absurd ht.2 hne
      · rw [← e]; exact hc _ ht
    exact ih r.dropLast (by rw [List.length_dropLast]; omega) h this

/-- the last slash of a path, if there is one after the first byte -/
theorem find_slash (s : Str) : (∀ j, 1 ≤ j → j < s.length → s[j]? ≠ some (ch '/')) ∨
    ∃ i, 1 ≤ i ∧ i < s.length ∧ s[i]? = some (ch '/') ∧ ∀ j, i < j → j < s.length → s[j]? ≠ some (ch '/') := by
  cases h : lastSlash s s.length with
  | none => exact Or.inl (lastSlash_none s _ h)
  | some i => exact Or.inr ⟨i, lastSlash_some s _ _ h⟩

/-- a path without such a slash has at most one name -/
theorem dir_short (E : Env) (s : Str) (hs : s ≠ []) (h : ∀ j, 1 ≤ j → j < s.length → s[j]? ≠ some (ch '/')) :
    E.dir s = [] ∨ (E.dir s).dropLast = [] ∨ (E.dir s).dropLast = E.cwd := by
  cases s with
  | nil => exact absurd rfl hs
  | cons c s =>
    have hb : ch '/' ∉ s := by
      intro hm
      obtain ⟨j, hj, e⟩ := List.getElem_of_mem hm
      exact h (j + 1) (by omega) (by simp; omega) (by simp [List.getElem?_eq_getElem hj, e])
    unfold Env.dir
    by_cases hc : c = ch '/'
    · subst hc
      have := names_slash [] s hb
      simp only [List.nil_append] at this
      simp only [List.head?_cons, if_true]
      rw [this]
      by_cases he : s = [] <;> simp [he, names, namesFrom]
    · have hb' : ch '/' ∉ c :: s := by simp only [List.mem_cons, not_or]; exact ⟨fun e => hc e.symm, hb⟩
      rw [if_neg (show ¬ (c :: s).head? = some (ch '/') from fun h => hc (Option.some.inj h)), names_plain _ hb', if_neg (by simp)]
      right; right
      simp

theorem visit_exact (E : Env) (hd : ∀ d, E.deny d = none) (fs : Fs) (hc : Closed fs) (hcwd : There fs E.cwd) (buf : Str) (N : Nat) :
    N < buf.length → buf[N]? = some (ch '/') → (0 : Byte) ∉ buf.take N → buf.take N ≠ [] →
    ∀ e r, E.dir (buf.take N) = e ++ r → There fs e → (∀ x t, r = x :: t → ¬ There fs (e ++ [x])) →
      (r = [] → (visit E buf fs N).1 = EEXIST ∧ (visit E buf fs N).2.2 = fs) ∧
      (∀ x, r = [x] → (visit E buf fs N).1 = 0 ∧ (visit E buf fs N).2.2 = fs ++ [e ++ [x]]) ∧
      (∀ x y t, r = x :: y :: t → (visit E buf fs N).1 = ENOENT ∧ (visit E buf fs N).2.2 = fs ++ [e ++ [x]] ++ [e ++ [x, y]]) := by
  induction N using Nat.strongRecOn with
  | ind N ih =>
    intro hN hs h0 hne e r hdir he hr
    obtain ⟨-, v1, v2⟩ := visit_eq E N buf fs hN hs h0
    refine ⟨fun h => ?_, fun x h => ?_, fun x y t h => ?_⟩
    · subst h
      rw [List.append_nil] at hdir
      have m := mkdir_there (E := E) hne (by rw [hdir]; exact he)
      rw [m] at v1
      exact v1 (show ¬ EEXIST = ENOENT by decide)
    · subst h
      have m := mkdir_new (E := E) (fs := fs) hne (by rw [hdir]; exact hr x [] rfl) (by rw [hdir]; simpa using he) (hd _)
      rw [m] at v1
      have := v1 (by show ¬ (0 : Nat) = ENOENT; decide)
      rw [hdir] at this; exact this
    · subst h
      have hx := hr x (y :: t) rfl
      have hnd : ¬ There fs (E.dir (buf.take N)) := by
        rw [hdir, show e ++ x :: y :: t = (e ++ [x]) ++ (y :: t) by simp]; exact above hc _ _ _ rfl hx
      have hnp : ¬ There fs (E.dir (buf.take N)).dropLast := by
        rw [hdir, show e ++ x :: y :: t = (e ++ [x]) ++ (y :: t) by simp, List.dropLast_append_of_ne_nil (by simp)]
        exact above hc _ _ _ rfl hx
      have m := mkdir_noent (E := E) hne hnd hnp
      rw [m] at v2
      have hlen : (buf.take N).length = N := by rw [List.length_take]; omega
      rcases find_slash (buf.take N) with hno | ⟨i, i1, i2, i3, i4⟩
      · exfalso
        rcases dir_short E _ hne hno with h | h | h
        · rw [hdir] at h; simp at h
        · rw [h] at hnp; exact hnp (Or.inl rfl)
        · rw [h] at hnp; exact hnp hcwd
      · rw [hlen] at i2 i4
        have idx : ∀ j, j < N → (buf.take N)[j]? = buf[j]? := fun j hj => List.getElem?_take_of_lt hj
        have b3 : buf[i]? = some (ch '/') := by rw [← idx i i2]; exact i3
        have b4 : ∀ j, i < j → j < N → buf[j]? ≠ some (ch '/') := fun j q1 q2 => by rw [← idx j q2]; exact i4 j q1 q2
        obtain ⟨w1, w2⟩ := (v2 rfl).2 i i1 i2 b3 b4
        obtain ⟨b, eb, hb⟩ := cut_last (buf.take N) i (by rw [hlen]; exact i2) i3 (by rw [hlen]; exact i4)
        have ett : (buf.take N).take i = buf.take i := by rw [List.take_take, Nat.min_eq_left (by omega)]
        rw [ett] at eb
        have hni : buf.take i ≠ [] := by
          intro h
          have := congrArg List.length h
          rw [List.length_take, List.length_nil] at this; omega
        have hds := dir_slash E (buf.take i) b hni hb
        rw [← eb, hdir] at hds
        have h0i : (0 : Byte) ∉ buf.take i := fun hm => h0 (by rw [← ett] at hm; exact List.mem_of_mem_take hm)
        by_cases hbe : b = []
        · rw [if_pos hbe, List.append_nil] at hds
          have := (ih i i2 (by omega) b3 h0i hni e (x :: y :: t) hds.symm he hr).2.2 x y t rfl
          rw [w1, w2, this.1, this.2, if_neg (by decide), if_neg (by decide)]; exact ⟨rfl, rfl⟩
        · rw [if_neg hbe] at hds
          have hdl : E.dir (buf.take i) = e ++ (x :: y :: t).dropLast := by
            have := congrArg List.dropLast hds
            rw [List.dropLast_append_of_ne_nil (by simp)] at this
            simpa using this.symm
          cases t with
          | nil =>
            have := (ih i i2 (by omega) b3 h0i hni e [x] hdl he (fun x' t' h => by cases h; exact hx)).2.1 x rfl
            rw [this.1, this.2, if_pos rfl] at w1 w2
            have hx' : ∀ d, There (fs ++ [e ++ [x]]) d ↔ There fs d ∨ d = e ++ [x] := by
              intro d; unfold There; simp [or_assoc]
            have m2 := mkdir_new (E := E) (fs := fs ++ [e ++ [x]]) hne
              (by
                rw [hdir, hx']
                rintro (h | h)
                · exact hnd (by rw [hdir]; exact h)
                · have := congrArg List.length h; simp at this)
              (by rw [hdir, hx']; right; simp [List.dropLast_append_of_ne_nil]) (hd _)
            rw [m2] at w1 w2
            rw [w1, w2, hdir]; exact ⟨rfl, rfl⟩
          | cons z t =>
            have := (ih i i2 (by omega) b3 h0i hni e (x :: y :: (z :: t).dropLast) (by simpa using hdl) he
              (fun x' t' h => by cases h; exact hx)).2.2 x y _ rfl
            rw [w1, w2, this.1, this.2, if_neg (by decide), if_neg (by decide)]; exact ⟨rfl, rfl⟩

/-- the path as `mkdir_p` passes it on -/
theorem path_end (E : Env) (p : Str) (h0 : (0 : Byte) ∉ p) (hp : names p ≠ []) :
    let q := if p.getLast? = some (ch '/') then p else p ++ [ch '/']
    q.length - 1 < q.length ∧ q[q.length - 1]? = some (ch '/') ∧ (0 : Byte) ∉ q.take (q.length - 1) ∧ q.take (q.length - 1) ≠ [] ∧
      E.dir (q.take (q.length - 1)) = E.dir p := by
  intro q
  have hpne : p ≠ [] := by rintro rfl; exact hp rfl
  by_cases hl : p.getLast? = some (ch '/')
  · have hq : q = p := if_pos hl
    have e : p = p.dropLast ++ [ch '/'] := by
      obtain ⟨ys, e⟩ := List.getLast?_eq_some_iff.mp hl
      rw [e]; simp
    have hlen : 0 < p.length := List.length_pos_iff.mpr hpne
    have hdl : p.take (p.length - 1) = p.dropLast := by rw [List.dropLast_eq_take]
    have hne : p.dropLast ≠ [] := by
      intro h
      rw [h] at e
      rw [e] at hp
      exact hp (by decide)
    rw [hq, hdl]
    refine ⟨by omega, ?_, fun hm => h0 ((List.dropLast_sublist p).subset hm), hne, ?_⟩
    · rw [← List.getLast?_eq_getElem?]; exact hl
    · have := dir_slash E p.dropLast [] hne (by simp)
      rw [if_pos rfl, List.append_nil, ← e] at this
      exact this.symm
  · have hq : q = p ++ [ch '/'] := if_neg hl
    have ht : (p ++ [ch '/']).take ((p ++ [ch '/']).length - 1) = p := by simp
    rw [hq, ht]
    exact ⟨by simp, by simp, h0, hpne, rfl⟩

/-- C100. What `mkdir_p` does when nothing is forbidden: of the missing directories it makes the first two, no more; and it
answers 0 only when exactly one was missing. -/
theorem made_exactly (E : Env) (hd : ∀ d, E.deny d = none) (fs : Fs) (hc : Closed fs) (hcwd : There fs E.cwd) (p : Str)
    (h0 : (0 : Byte) ∉ p) (hp : names p ≠ []) (e r : List Str) (hdir : E.dir p = e ++ r) (he : There fs e)
    (hr : ∀ x t, r = x :: t → ¬ There fs (e ++ [x])) :
    (r = [] → mkdir_p E fs p = (EEXIST, fs)) ∧
    (∀ x, r = [x] → mkdir_p E fs p = (0, fs ++ [e ++ [x]])) ∧
    (∀ x y t, r = x :: y :: t → mkdir_p E fs p = (ENOENT, fs ++ [e ++ [x]] ++ [e ++ [x, y]])) := by
  obtain ⟨q1, q2, q3, q4, q5⟩ := path_end E p h0 hp
  have v := visit_exact E hd fs hc hcwd _ _ q1 q2 q3 q4 e r (q5.trans hdir) he hr
  unfold mkdir_p
  dsimp only
  refine ⟨fun h => ?_, fun x h => ?_, fun x y t h => ?_⟩
  · have := v.1 h; rw [this.1, this.2]
  · have := v.2.1 x h; rw [this.1, this.2]
  · have := v.2.2 x y t h; rw [this.1, this.2]

/-- every path has a longest part that is there -/
theorem split_there (fs : Fs) : ∀ (r e : List Str), There fs e →
    ∃ a b, e ++ r = a ++ b ∧ There fs a ∧ ∀ x t, b = x :: t → ¬ There fs (a ++ [x]) := by
  intro r
  induction r with
  | nil => intro e he; exact ⟨e, [], rfl, he, by intro x t h; cases h⟩
  | cons x r ih =>
    intro e he
    by_cases h : There fs (e ++ [x])
    · obtain ⟨a, b, q, w⟩ := ih (e ++ [x]) h
      exact ⟨a, b, by rw [← q]; simp, w⟩
    · exact ⟨e, x :: r, rfl, he, by intro x' t' h'; cases h'; exact h⟩

/-- C100, for up to two missing directories: afterwards the directory is there. -/
theorem made_partial (E : Env) (hd : ∀ d, E.deny d = none) (fs : Fs) (hc : Closed fs) (hcwd : There fs E.cwd) (p : Str)
    (h0 : (0 : Byte) ∉ p) (hp : names p ≠ []) (e r : List Str) (hdir : E.dir p = e ++ r) (he : There fs e) (h2 : r.length ≤ 2) :
    There (mkdir_p E fs p).2 (E.dir p) := by
  obtain ⟨a, b, q, w1, w2⟩ := split_there fs r e he
  have key := made_exactly E hd fs hc hcwd p h0 hp a b (hdir.trans q) w1 w2
  -- `a` is at least as long as `e`
  have hlen : b.length ≤ 2 := by
    have gen : ∀ (r e : List Str), There fs e → ∀ a b, e ++ r = a ++ b → There fs a → (∀ x t, b = x :: t → ¬ There fs (a ++ [x])) →
        b.length ≤ r.length := by
      intro r e he a b q w1 w2
      have L := congrArg List.length q
      simp only [List.length_append] at L
      rcases Nat.lt_or_ge a.length e.length with hlt | hge
      · exfalso
        have ea : a = e.take a.length := by
          have := congrArg (List.take a.length) q
          rw [List.take_append_of_le_length (by omega)] at this
          simpa using this.symm
        have eb : ∃ x t, b = x :: t := by
          cases b with
          | nil => simp at L; omega
          | cons x t => exact ⟨x, t, rfl⟩
        obtain ⟨x, t, eb⟩ := eb
        have hx : a ++ [x] = e.take (a.length + 1) := by
          have h := congrArg (List.take (a.length + 1)) q
          rw [List.take_append_of_le_length (by omega), eb] at h
          rw [h, show a ++ x :: t = (a ++ [x]) ++ t by simp, List.take_append_of_le_length (by simp), List.take_of_length_le (by simp)]
        refine w2 x t eb ?_
        rw [hx]
        refine Classical.byContradiction fun hn => ?_
        have := above hc (e.take (a.length + 1)) _ (e.drop (a.length + 1)) rfl hn
        rw [List.take_append_drop] at this
        exact this he
      · omega
    have := gen r e he a b q w1 w2
    omega
  rw [hdir, q]
  match b, hlen with
  | [], _ => rw [key.1 rfl]; simpa using w1
  | [x], _ => rw [key.2.1 x rfl]; right; simp
  | [x, y], _ => rw [key.2.2 x y [] rfl]; right; simp

/-! ### whatever the system forbids -/

theorem mkdir_adds (E : Env) (fs : Fs) (p : Str) : (mkdir E fs p).2 = fs ∨
    ((mkdir E fs p).1 = 0 ∧ (mkdir E fs p).2 = fs ++ [E.dir p] ∧ There fs (E.dir p).dropLast) ∨ (mkdir E fs p).2 = fs := by
  unfold mkdir
  repeat' split
  all_goals first | exact Or.inl rfl | skip
  rename_i h1 h2 h3 _ _
  exact Or.inr (Or.inl ⟨rfl, rfl, by simpa using h3⟩)

/-- only the directory and those it is in are made, and each in one that is there -/
theorem visit_only (E : Env) (N : Nat) : ∀ (buf : Str) (fs : Fs), N < buf.length → buf[N]? = some (ch '/') → (0 : Byte) ∉ buf.take N →
    Closed fs → Closed (visit E buf fs N).2.2 ∧ ∃ new, (visit E buf fs N).2.2 = fs ++ new ∧
      ∀ d ∈ new, ∃ t, E.dir (buf.take N) = d ++ t := by
  induction N using Nat.strongRecOn with
  | ind N ih =>
    intro buf fs hN hs h0 hc
    obtain ⟨-, v1, v2⟩ := visit_eq E N buf fs hN hs h0
    have one : ∀ fs : Fs, Closed fs → Closed (mkdir E fs (buf.take N)).2 ∧ ∃ new, (mkdir E fs (buf.take N)).2 = fs ++ new ∧
        ∀ d ∈ new, ∃ t, E.dir (buf.take N) = d ++ t := by
      intro fs hc
      rcases mkdir_adds E fs (buf.take N) with h | ⟨-, h, hp⟩ | h
      · rw [h]; exact ⟨hc, [], by simp, by intro d hd; cases hd⟩
      · rw [h]
        refine ⟨?_, [E.dir (buf.take N)], rfl, fun d hd => ⟨[], by rw [List.mem_singleton.mp hd]; simp⟩⟩
        intro d hd
        have up : ∀ d, There fs d → There (fs ++ [E.dir (buf.take N)]) d := by
          intro d h; rcases h with h | h
          · exact Or.inl h
          · exact Or.inr (by simp [h])
        rcases List.mem_append.mp hd with hd | hd
        · exact up _ (hc d hd)
        · rw [List.mem_singleton.mp hd]; exact up _ hp
      · rw [h]; exact ⟨hc, [], by simp, by intro d hd; cases hd⟩
    by_cases hE : (mkdir E fs (buf.take N)).1 = ENOENT
    · have hlen : (buf.take N).length = N := by rw [List.length_take]; omega
      rcases find_slash (buf.take N) with hno | ⟨i, i1, i2, i3, i4⟩
      · have idx : ∀ j, j < N → (buf.take N)[j]? = buf[j]? := fun j hj => List.getElem?_take_of_lt hj
        rw [((v2 hE).1 (fun j q1 q2 => by rw [← idx j q2]; exact hno j q1 (by rw [hlen]; exact q2))).2]
        exact ⟨hc, [], by simp, by intro d hd; cases hd⟩
      · rw [hlen] at i2 i4
        have idx : ∀ j, j < N → (buf.take N)[j]? = buf[j]? := fun j hj => List.getElem?_take_of_lt hj
        have b3 : buf[i]? = some (ch '/') := by rw [← idx i i2]; exact i3
        obtain ⟨b, eb, hb⟩ := cut_last (buf.take N) i (by rw [hlen]; exact i2) i3 (by rw [hlen]; exact i4)
        have ett : (buf.take N).take i = buf.take i := by rw [List.take_take, Nat.min_eq_left (by omega)]
        rw [ett] at eb
        have hni : buf.take i ≠ [] := by
          intro h
          have := congrArg List.length h
          rw [List.length_take, List.length_nil] at this; omega
        have hds := dir_slash E (buf.take i) b hni hb
        rw [← eb] at hds
        have h0i : (0 : Byte) ∉ buf.take i := fun hm => h0 (by rw [← ett] at hm; exact List.mem_of_mem_take hm)
        obtain ⟨c1, new, en, hn⟩ := ih i i2 buf fs (by omega) b3 h0i hc
        have hn' : ∀ d ∈ new, ∃ t, E.dir (buf.take N) = d ++ t := by
          intro d hd
          obtain ⟨t, ht⟩ := hn d hd
          exact ⟨t ++ (if b = [] then [] else [b]), by rw [hds, ht, List.append_assoc]⟩
        rw [((v2 hE).2 i i1 i2 b3 (fun j q1 q2 => by rw [← idx j q2]; exact i4 j q1 q2)).2]
        split
        · obtain ⟨k1, new2, k2, k3⟩ := one _ c1
          refine ⟨k1, new ++ new2, by rw [k2, en, List.append_assoc], ?_⟩
          intro d hd
          rcases List.mem_append.mp hd with hd | hd
          · exact hn' d hd
          · exact k3 d hd
        · exact ⟨c1, new, en, hn'⟩
    · rw [(v1 hE).2]; exact one fs hc

/-- Whatever the system forbids: nothing is removed, and only the directory and those it is in are made, each inside one that
is there; and 0 means that the directory was made. -/
theorem only_its_own (E : Env) (fs : Fs) (hc : Closed fs) (p : Str) (h0 : (0 : Byte) ∉ p) (hp : names p ≠ [])
    (hdeny : ∀ d, E.deny d ≠ some 0) :
    Closed (mkdir_p E fs p).2 ∧ (∃ new, (mkdir_p E fs p).2 = fs ++ new ∧ ∀ d ∈ new, ∃ t, E.dir p = d ++ t) ∧
    ((mkdir_p E fs p).1 = 0 → (mkdir_p E fs p).2 = fs ++ [E.dir p]) := by
  obtain ⟨q1, q2, q3, q4, q5⟩ := path_end E p h0 hp
  have o := visit_only E _ _ fs q1 q2 q3 hc
  obtain ⟨-, v1, v2⟩ := visit_eq E _ _ fs q1 q2 q3
  rw [q5] at o
  unfold mkdir_p
  dsimp only
  refine ⟨o.1, o.2, ?_⟩
  clear o
  generalize (if p.getLast? = some (ch '/') then p else p ++ [ch '/']) = q at q1 q2 q3 q4 q5 v1 v2 ⊢
  intro hz
  have hnE : (mkdir E fs (q.take (q.length - 1))).1 ≠ ENOENT := by
    intro hE
    rcases find_slash (q.take (q.length - 1)) with hno | ⟨i, i1, i2, i3, i4⟩
    · have := ((v2 hE).1 (fun j k1 k2 => by
        have := hno j k1 (by rw [List.length_take]; omega)
        rwa [List.getElem?_take_of_lt k2] at this)).1
      rw [hz] at this; exact absurd this (by decide)
    · rw [List.length_take] at i2 i4
      have := ((v2 hE).2 i i1 (by omega) (by rw [List.getElem?_take_of_lt (by omega)] at i3; exact i3) (fun j k1 k2 => by
        have := i4 j k1 (by omega)
        rwa [List.getElem?_take_of_lt k2] at this)).1
      rw [hz] at this
      split at this
      · split at this
        · rename_i h; exact h this.symm
        · exact absurd this (by decide)
      · exact absurd this (by decide)
  obtain ⟨w1, w2⟩ := v1 hnE
  rw [w2]
  rw [hz] at w1
  unfold mkdir at w1 ⊢
  rw [if_neg q4] at w1 ⊢
  by_cases a1 : There fs (E.dir (q.take (q.length - 1)))
  · rw [if_pos a1] at w1; exact absurd w1 (show ¬ 0 = EEXIST by decide)
  rw [if_neg a1] at w1 ⊢
  by_cases a2 : There fs (E.dir (q.take (q.length - 1))).dropLast
  · rw [if_neg (by simpa using a2)] at w1 ⊢
    cases hdn : E.deny (E.dir (q.take (q.length - 1))) with
    | some e =>
      rw [hdn] at w1
      exact absurd (by rw [hdn]; exact congrArg some w1.symm) (hdeny (E.dir (q.take (q.length - 1))))
    | none => rw [q5]
  · rw [if_pos a2] at w1; exact absurd w1 (show ¬ 0 = ENOENT by decide)

/-! ### examples, and what goes wrong -/

def free : Env := ⟨[], fun _ => none⟩

/-- BUG: with three missing directories the last is not made. -/
theorem third_not_made : (mkdir_p free [] (str "a/b/c")).1 = ENOENT ∧ ¬ There (mkdir_p free [] (str "a/b/c")).2 (free.dir (str "a/b/c")) := by
  have h := (made_exactly free (fun _ => rfl) [] (by intro d hd; cases hd) (Or.inl rfl) (str "a/b/c") (by decide) (by decide) []
    [str "a", str "b", str "c"] (by decide) (Or.inl rfl) (by intro x t h; cases h; decide)).2.2 _ _ _ rfl
  rw [h]; exact ⟨rfl, by decide⟩

/-- BUG: with two missing directories both are made, and the answer is an error nevertheless. -/
theorem made_but_error : (mkdir_p free [] (str "a/b")).1 = ENOENT ∧ There (mkdir_p free [] (str "a/b")).2 (free.dir (str "a/b")) := by
  have h := (made_exactly free (fun _ => rfl) [] (by intro d hd; cases hd) (Or.inl rfl) (str "a/b") (by decide) (by decide) []
    [str "a", str "b"] (by decide) (Or.inl rfl) (by intro x t h; cases h; decide)).2.2 _ _ _ rfl
  rw [h]; exact ⟨rfl, by decide⟩

/-- The root is said not to exist. -/
theorem root_noent (E : Env) (fs : Fs) : mkdir_p E fs (str "/") = (ENOENT, fs) := by
  have hm : mkdir E fs [] = (ENOENT, fs) := by unfold mkdir; rw [if_pos rfl]
  unfold mkdir_p
  rw [show (if (str "/").getLast? = some (ch '/') then str "/" else str "/" ++ [ch '/']) = str "/" by decide]
  dsimp only
  rw [visit]
  have hcs : cstr ((str "/").set ((str "/").length - 1) 0) = [] := by decide
  dsimp only
  rw [hcs, hm]
  rfl

example : mkdir_p ⟨[str "home"], fun _ => none⟩ [[str "home"], [str "home", str "x"]] (str "x/y/") =
    (0, [[str "home"], [str "home", str "x"], [str "home", str "x", str "y"]]) :=
  (made_exactly ⟨[str "home"], fun _ => none⟩ (fun _ => rfl) _ (by unfold Closed; decide) (by decide) (str "x/y/") (by decide) (by decide)
    [str "home", str "x"] [str "y"] (by decide) (by decide) (by intro x t h; cases h; decide)).2.1 _ rfl

end Verif.Mkdir

import Verif.FieldSpec
import Verif.LifetimeOps
/-! # Fields are where they are said to be, and different ones never overlap (C107) -/
namespace Verif.Field
open Verif.Lifetime

variable {decls : List Decl} {types : List UserType}

/-! ## Counting -/

theorem Count.inj {ts : List Ty} {n m : Nat} (h : Count decls ts n) (h' : Count decls ts m) : n = m := by
  induction h generalizing m with
  | nil => cases h'; rfl
  | nothing _ ih => cases h' with | nothing h' => exact ih h'
  | prim _ ih => cases h' with | prim h' => rw [ih h']
  | slice _ ih => cases h' with | slice h' => rw [ih h']
  | enum hd _ ih =>
    cases h' with
    | enum _ h' => rw [ih h']
    | parts hd' hk _ _ => rw [hd] at hd'; cases hd'; exact absurd rfl hk
  | parts hd hk _ _ ih1 ih2 =>
    cases h' with
    | enum hd' h' => rw [hd] at hd'; cases hd'; exact absurd rfl hk
    | parts hd' _ h1 h2 => rw [hd] at hd'; cases hd'; rw [ih1 h1, ih2 h2]

theorem Count.cons {t : Ty} {ts : List Ty} {c n : Nat} (h : Count decls [t] c) (h' : Count decls ts n) : Count decls (t :: ts) (c + n) := by
  cases h with
  | nothing h => cases h; rw [Nat.zero_add]; exact .nothing h'
  | prim h => cases h; rw [Nat.zero_add, Nat.add_comm]; exact .prim h'
  | slice h => cases h; rw [Nat.zero_add, Nat.add_comm]; exact .slice h'
  | enum hd h => cases h; rw [Nat.zero_add, Nat.add_comm]; exact .enum hd h'
  | parts hd hk hm h => cases h; rw [Nat.add_zero]; exact .parts hd hk hm h'

theorem Count.uncons {t : Ty} {ts : List Ty} {n : Nat} (h : Count decls (t :: ts) n) :
    ∃ c m, Count decls [t] c ∧ Count decls ts m ∧ n = c + m := by
  cases h with
  | nothing h => exact ⟨_, _, .nothing .nil, h, (Nat.zero_add _).symm⟩
  | prim h => exact ⟨_, _, .prim .nil, h, by omega⟩
  | slice h => exact ⟨_, _, .slice .nil, h, by omega⟩
  | enum hd h => exact ⟨_, _, .enum hd .nil, h, by omega⟩
  | parts hd hk hm h => exact ⟨_, _, .parts hd hk hm .nil, h, by omega⟩

/-- what is before a member, the member and the rest -/
theorem Count.split {ts : List Ty} {n : Nat} (h : Count decls ts n) : ∀ {i : Nat} {t : Ty}, ts[i]? = some t →
    ∃ a c, Count decls (ts.take i) a ∧ Count decls [t] c ∧ a + c ≤ n ∧ ∀ j b, i < j → Count decls (ts.take j) b → a + c ≤ b := by
  induction ts generalizing n with
  | nil => intro i t ht; simp at ht
  | cons t0 ts ih =>
    intro i t ht
    obtain ⟨c0, m, h0, hm, rfl⟩ := h.uncons
    cases i with
    | zero =>
      simp only [List.getElem?_cons_zero, Option.some.injEq] at ht
      subst ht
      refine ⟨0, c0, .nil, h0, by omega, fun j b hj hb => ?_⟩
      obtain ⟨j, rfl⟩ : ∃ j', j = j' + 1 := ⟨j - 1, by omega⟩
      rw [List.take_succ_cons] at hb
      obtain ⟨c1, b1, e1, -, rfl⟩ := hb.uncons
      rw [h0.inj e1]; omega
    | succ i =>
      rw [List.getElem?_cons_succ] at ht
      obtain ⟨a, c, ha, hc, hle, hj⟩ := ih hm ht
      refine ⟨c0 + a, c, by rw [List.take_succ_cons]; exact h0.cons ha, hc, by omega, fun j b hij hb => ?_⟩
      obtain ⟨j, rfl⟩ : ∃ j', j = j' + 1 := ⟨j - 1, by omega⟩
      rw [List.take_succ_cons] at hb
      obtain ⟨c1, b1, e1, e2, rfl⟩ := hb.uncons
      have := hj j b1 (by omega) e2
      rw [h0.inj e1]; omega

theorem Count.struct_iff {k : Nat} {ms : List Ty} {n : Nat} (hd : decls[k]? = some ⟨.struct, ms⟩) : Count decls [.user k] n ↔ Count decls ms n := by
  constructor
  · intro h
    cases h with
    | enum hd' _ => rw [hd] at hd'; cases hd'
    | parts hd' _ hm h => rw [hd] at hd'; cases hd'; cases h; exact hm
  · intro h
    exact .parts (n := 0) hd (by decide) h .nil

theorem At.inj {t : Ty} {p : List Nat} {o c o' c' : Nat} {u u' : Ty} (h : At decls t p o c u) (h' : At decls t p o' c' u') :
    o = o' ∧ c = c' ∧ u = u' := by
  induction h generalizing o' c' u' with
  | self h => cases h' with | self h' => exact ⟨rfl, h.inj h', rfl⟩
  | field hd hi ha _ ih =>
    cases h' with
    | field hd' hi' ha' h' =>
      rw [hd] at hd'; cases hd'
      rw [hi] at hi'; cases hi'
      obtain ⟨rfl, rfl, rfl⟩ := ih h'
      exact ⟨by rw [ha.inj ha'], rfl, rfl⟩

theorem At.count {t : Ty} {p : List Nat} {o c : Nat} {u : Ty} (h : At decls t p o c u) : Count decls [u] c := by
  induction h with
  | self h => exact h
  | field _ _ _ _ ih => exact ih

theorem At.within {t : Ty} {p : List Nat} {o c : Nat} {u : Ty} (h : At decls t p o c u) {n : Nat} (hn : Count decls [t] n) : o + c ≤ n := by
  induction h generalizing n with
  | self h => rw [h.inj hn]; omega
  | field hd hi ha _ ih =>
    rw [Count.struct_iff hd] at hn
    obtain ⟨a, c, ha', hc, hle, -⟩ := hn.split hi
    have := ih hc
    rw [ha.inj ha']; omega

theorem At.append {t : Ty} {p r : List Nat} {o c : Nat} {u : Ty} (h : At decls t (p ++ r) o c u) {o' c' : Nat} {u' : Ty}
    (h' : At decls t p o' c' u') : ∃ o1, At decls u' r o1 c u ∧ o = o' + o1 := by
  induction h' generalizing o c u with
  | self _ => exact ⟨o, h, (Nat.zero_add _).symm⟩
  | field hd hi ha _ ih =>
    cases h with
    | field hd' hi' ha' h =>
      rw [hd] at hd'; cases hd'
      rw [hi] at hi'; cases hi'
      obtain ⟨o1, h1, rfl⟩ := ih h
      exact ⟨o1, h1, by rw [ha.inj ha']; omega⟩

/-- two places overlap exactly if one is in the other -/
theorem At.overlap {t : Ty} {p q : List Nat} {o c o' c' : Nat} {u u' : Ty} (h : At decls t p o c u) (h' : At decls t q o' c' u')
    (hc : 0 < c) (hc' : 0 < c') {n : Nat} (hn : Count decls [t] n) : (o < o' + c' ∧ o' < o + c) ↔ (p <+: q ∨ q <+: p) := by
  constructor
  · intro hov
    induction h generalizing q o' c' u' n with
    | self _ => exact .inl (List.nil_prefix)
    | @field k i ms t p a o c u hd hi ha h1 ih =>
      cases h' with
      | self _ => exact .inr (List.nil_prefix)
      | @field _ j _ t' p' a' o' _ _ hd' hi' ha' h' =>
        rw [hd] at hd'; cases hd'
        rw [Count.struct_iff hd] at hn
        obtain ⟨a1, n1, ka, kn, -, kj⟩ := hn.split hi
        obtain ⟨a2, n2, ka', kn', -, kj'⟩ := hn.split hi'
        have w1 := h1.within kn
        have w2 := h'.within kn'
        rcases Nat.lt_trichotomy i j with hij | hij | hij
        · exfalso
          have := kj _ _ hij ha'
          rw [ha.inj ka] at hov
          omega
        · subst hij
          rw [hi] at hi'; cases hi'
          rw [ha.inj ha'] at hov
          have := ih h' hc hc' kn (by omega)
          rcases this with h | h
          · exact .inl (List.cons_prefix_cons.2 ⟨rfl, h⟩)
          · exact .inr (List.cons_prefix_cons.2 ⟨rfl, h⟩)
        · exfalso
          have := kj' _ _ hij ha
          rw [ha'.inj ka'] at hov
          omega
  · rintro (⟨r, rfl⟩ | ⟨r, rfl⟩)
    · obtain ⟨o1, h1, rfl⟩ := h'.append h
      have := h1.within h.count
      omega
    · obtain ⟨o1, h1, rfl⟩ := h.append h'
      have := h1.within h'.count
      omega

/-! ## What is solved -/

theorem getFlatCount_append {a b : List UserType} {t : Ty} {c : BitVec 32} (h : getFlatCount a t = some c) : getFlatCount (a ++ b) t = some c := by
  cases t with
  | user k =>
    simp only [getFlatCount, Option.map_eq_some_iff] at h ⊢
    obtain ⟨s, hs, rfl⟩ := h
    exact ⟨s, by rw [List.getElem?_append_left (List.getElem?_eq_some_iff.1 hs).1]; exact hs, rfl⟩
  | _ => exact h

theorem layout_append {a b : List UserType} {ts : List Ty} {sum : BitVec 32} {r : List Field × BitVec 32} (h : layout a ts sum = some r) :
    layout (a ++ b) ts sum = some r := by
  induction ts generalizing sum r with
  | nil => exact h
  | cons t ts ih =>
    unfold layout at h ⊢
    cases hc : getFlatCount a t with
    | none => rw [hc] at h; exact absurd h (by simp)
    | some c =>
      rw [hc] at h
      rw [getFlatCount_append hc]
      simp only at h ⊢
      cases hl : layout a ts (sum + c) with
      | none => rw [hl] at h; exact absurd h (by simp)
      | some r' => rw [hl] at h; rw [ih hl]; exact h

theorem solveStruct_append {a b : List UserType} {d : Decl} {s : UserType} (h : solveStruct a d = some s) : solveStruct (a ++ b) d = some s := by
  unfold solveStruct at h ⊢
  cases hk : d.kind <;> rw [hk] at h <;> simp only at h ⊢
  · simp only [Option.map_eq_some_iff] at h ⊢; obtain ⟨r, hr, e⟩ := h; exact ⟨r, layout_append hr, e⟩
  · simp only [Option.map_eq_some_iff] at h ⊢; obtain ⟨r, hr, e⟩ := h; exact ⟨r, layout_append hr, e⟩
  · exact h

theorem solveAll_get {ds : List Decl} {ts out : List UserType} (h : solveAll ds ts = some out) : ∃ more, out = ts ++ more ∧ more.length = ds.length ∧
    ∀ (k : Nat) (d : Decl), ds[k]? = some d → ∃ s, more[k]? = some s ∧ solveStruct (ts ++ more.take k) d = some s := by
  induction ds generalizing ts with
  | nil => unfold solveAll at h; cases h; exact ⟨[], by simp, rfl, fun k d hk => by simp at hk⟩
  | cons d0 ds ih =>
    unfold solveAll at h
    cases hs : solveStruct ts d0 with
    | none => rw [hs] at h; exact absurd h (by simp)
    | some s0 =>
      rw [hs] at h
      obtain ⟨more, e, el, hm⟩ := ih h
      refine ⟨s0 :: more, by rw [e]; simp, by simp [el], fun k d hk => ?_⟩
      cases k with
      | zero =>
        simp only [List.getElem?_cons_zero, Option.some.injEq] at hk
        subst hk
        exact ⟨s0, rfl, by simpa using hs⟩
      | succ k =>
        rw [List.getElem?_cons_succ] at hk
        obtain ⟨s, h1, h2⟩ := hm k d hk
        exact ⟨s, by rw [List.getElem?_cons_succ]; exact h1, by rw [List.take_succ_cons]; simpa using h2⟩

/-- a declared type is solved, by the types before it, and as by all -/
theorem solved (h : solveAll decls [] = some types) {k : Nat} {d : Decl} (hd : decls[k]? = some d) :
    ∃ s, types[k]? = some s ∧ solveStruct (types.take k) d = some s ∧ solveStruct types d = some s := by
  obtain ⟨more, e, -, hm⟩ := solveAll_get h
  rw [List.nil_append] at e
  subst e
  obtain ⟨s, h1, h2⟩ := hm k d hd
  rw [List.nil_append] at h2
  refine ⟨s, h1, h2, ?_⟩
  have := solveStruct_append (b := types.drop k) h2
  rwa [List.take_append_drop] at this

theorem layout_cons {t : Ty} {ts : List Ty} {sum : BitVec 32} {fields : List Field} {total : BitVec 32}
    (h : layout types (t :: ts) sum = some (fields, total)) : ∃ c fs, getFlatCount types t = some c ∧ layout types ts (sum + c) = some (fs, total) ∧
      fields = ⟨t, pack sum c⟩ :: fs := by
  unfold layout at h
  cases hc : getFlatCount types t with
  | none => rw [hc] at h; exact absurd h (by simp)
  | some c =>
    rw [hc] at h
    simp only at h
    cases hl : layout types ts (sum + c) with
    | none => rw [hl] at h; exact absurd h (by simp)
    | some r => rw [hl] at h; cases h; exact ⟨c, r.1, rfl, hl, rfl⟩

/-- the counts in the types are those of the parts -/
theorem layout_count (hs : solveAll decls [] = some types) {ts : List Ty} {n : Nat} (h : Count decls ts n) :
    ∀ {sum fields total}, layout types ts sum = some (fields, total) → total = sum + BitVec.ofNat 32 n := by
  induction h with
  | nil => intro sum fields total h; unfold layout at h; cases h; simp
  | nothing _ ih =>
    intro sum fields total h
    obtain ⟨c, fs, e, h, -⟩ := layout_cons h
    cases e
    rw [ih h]; simp
  | prim _ ih =>
    intro sum fields total h
    obtain ⟨c, fs, e, h, -⟩ := layout_cons h
    cases e
    rw [ih h, Nat.add_comm, BitVec.ofNat_add]; exact BitVec.add_assoc _ _ _
  | slice _ ih =>
    intro sum fields total h
    obtain ⟨c, fs, e, h, -⟩ := layout_cons h
    cases e
    rw [ih h, Nat.add_comm, BitVec.ofNat_add]; exact BitVec.add_assoc _ _ _
  | enum hd _ ih =>
    intro sum fields total h
    obtain ⟨c, fs, e, h, -⟩ := layout_cons h
    obtain ⟨s, h1, -, h2⟩ := solved hs hd
    simp only [getFlatCount, h1, Option.map_some, Option.some.injEq] at e
    simp only [solveStruct, Option.some.injEq] at h2
    subst h2
    subst e
    rw [ih h, Nat.add_comm, BitVec.ofNat_add]; exact BitVec.add_assoc _ _ _
  | @parts k kd ms m ts n hd hk _ _ ih1 ih2 =>
    intro sum fields total h
    obtain ⟨c, fs, e, h, -⟩ := layout_cons h
    obtain ⟨s, h1, -, h2⟩ := solved hs hd
    simp only [getFlatCount, h1, Option.map_some, Option.some.injEq] at e
    have h2 : (layout types ms 0#32).map (fun r => (⟨r.2, r.1⟩ : UserType)) = some s := by
      cases kd
      · exact h2
      · exact h2
      · exact absurd rfl hk
    rw [Option.map_eq_some_iff] at h2
    obtain ⟨⟨fs', tot⟩, hl, rfl⟩ := h2
    have := ih1 hl
    simp only at e
    rw [ih2 h, ← e, this, BitVec.ofNat_add, BitVec.zero_add, BitVec.add_assoc]

theorem count_one (hs : solveAll decls [] = some types) {t : Ty} {c : Nat} (h : Count decls [t] c) {x : BitVec 32}
    (hx : getFlatCount types t = some x) : x = BitVec.ofNat 32 c := by
  have : layout types [t] 0#32 = some ([⟨t, pack 0#32 x⟩], 0#32 + x) := by simp [layout, hx]
  have := layout_count hs h this
  simpa using this

/-- each field has its type and its place -/
theorem layout_fields (hs : solveAll decls [] = some types) {ts : List Ty} {n : Nat} (h : Count decls ts n) :
    ∀ {sum fields total}, layout types ts sum = some (fields, total) → ∀ {i : Nat} {t : Ty}, ts[i]? = some t → ∀ {a c : Nat},
      Count decls (ts.take i) a → Count decls [t] c → fields[i]? = some ⟨t, pack (sum + BitVec.ofNat 32 a) (BitVec.ofNat 32 c)⟩ := by
  induction ts generalizing n with
  | nil => intro _ _ _ _ i t ht; simp at ht
  | cons t0 ts ih =>
    intro sum fields total hl i t ht a c ha hc
    obtain ⟨x, fs, hx, hl', rfl⟩ := layout_cons hl
    obtain ⟨c0, m, h0, hm, -⟩ := h.uncons
    have ex := count_one hs h0 hx
    cases i with
    | zero =>
      simp only [List.getElem?_cons_zero, Option.some.injEq] at ht
      subst ht
      rw [List.take_zero] at ha
      cases ha
      rw [ex, h0.inj hc]
      simp
    | succ i =>
      rw [List.getElem?_cons_succ] at ht
      rw [List.take_succ_cons] at ha
      obtain ⟨c1, a1, e1, e2, rfl⟩ := ha.uncons
      rw [List.getElem?_cons_succ, ih hm hl' ht e2 hc, ex, h0.inj e1, BitVec.ofNat_add, BitVec.add_assoc]

theorem counts (hs : solveAll decls [] = some types) : ∀ k : Nat, ∀ t : Ty, (getFlatCount (types.take k) t).isSome → ∃ n, Count decls [t] n := by
  intro k
  induction k with
  | zero =>
    intro t ht
    cases t with
    | nothing => exact ⟨_, .nothing .nil⟩
    | prim => exact ⟨_, .prim .nil⟩
    | slice => exact ⟨_, .slice .nil⟩
    | user k => simp [getFlatCount] at ht
  | succ k ih =>
    intro t ht
    cases t with
    | nothing => exact ⟨_, .nothing .nil⟩
    | prim => exact ⟨_, .prim .nil⟩
    | slice => exact ⟨_, .slice .nil⟩
    | user j =>
      by_cases hj : j < k
      · apply ih
        simp only [getFlatCount, Option.isSome_map] at ht ⊢
        rw [List.getElem?_take_of_lt hj]
        rwa [List.getElem?_take_of_lt (by omega)] at ht
      · simp only [getFlatCount, Option.isSome_map, Option.isSome_iff_exists] at ht
        obtain ⟨s, hsj⟩ := ht
        have hjk : j = k := by
          have := (List.getElem?_eq_some_iff.1 hsj).1
          rw [List.length_take] at this
          omega
        subst hjk
        rw [List.getElem?_take_of_lt (by omega)] at hsj
        obtain ⟨more, e, el, hm⟩ := solveAll_get hs
        rw [List.nil_append] at e
        subst e
        have hlt : j < decls.length := by rw [← el]; exact (List.getElem?_eq_some_iff.1 hsj).1
        obtain ⟨s', h1, h2, -⟩ := solved hs (List.getElem?_eq_getElem hlt)
        rcases hd : decls[j] with ⟨kd, ms⟩
        rw [hd] at h2
        have hget : decls[j]? = some ⟨kd, ms⟩ := by rw [List.getElem?_eq_getElem hlt, hd]
        by_cases hk : kd = .prim
        · subst hk; exact ⟨_, .enum hget .nil⟩
        · have h2 : ∃ r, layout (types.take j) ms 0#32 = some r := by
            cases kd
            · simp only [solveStruct, Option.map_eq_some_iff] at h2; exact ⟨_, h2.choose_spec.1⟩
            · simp only [solveStruct, Option.map_eq_some_iff] at h2; exact ⟨_, h2.choose_spec.1⟩
            · exact absurd rfl hk
          obtain ⟨r, hr⟩ := h2
          have : ∃ m, Count decls ms m := by
            clear hget h1 hd h2
            generalize (0#32 : BitVec 32) = sum at hr
            induction ms generalizing sum r with
            | nil => exact ⟨0, .nil⟩
            | cons t ms ihm =>
              obtain ⟨c, fs, hc, hl, -⟩ := layout_cons (fields := r.1) (total := r.2) hr
              obtain ⟨m, hm'⟩ := ihm _ _ hl
              obtain ⟨n, hn⟩ := ih t (by rw [hc]; rfl)
              exact ⟨_, hn.cons hm'⟩
          obtain ⟨m, hm'⟩ := this
          exact ⟨_, .parts hget hk hm' .nil⟩

/-! ## The packed form -/

theorem unpack_pack (a c : Nat) (ha : a < 2 ^ 16) (hc : c < 2 ^ 15) : unpack (pack (BitVec.ofNat 32 a) (BitVec.ofNat 32 c)) = (BitVec.ofNat 32 a, BitVec.ofNat 32 c) := by
  have e : (pack (BitVec.ofNat 32 a) (BitVec.ofNat 32 c)).toNat = c * 2 ^ 16 + a := by
    unfold pack
    rw [BitVec.toNat_or, BitVec.toNat_shiftLeft, BitVec.toNat_ofNat, BitVec.toNat_ofNat, Nat.mod_eq_of_lt (a := a) (by omega),
      Nat.mod_eq_of_lt (a := c) (by omega), Nat.shiftLeft_eq, Nat.mod_eq_of_lt (by omega), Nat.or_comm, ← Nat.shiftLeft_eq,
      ← Nat.shiftLeft_add_eq_or_of_lt ha]
  unfold unpack
  refine Prod.ext ?_ ?_
  · apply BitVec.eq_of_toNat_eq
    rw [BitVec.toNat_and, e, BitVec.toNat_ofNat, BitVec.toNat_ofNat, show 65535 % 2 ^ 32 = 2 ^ 16 - 1 by decide, Nat.and_two_pow_sub_one_eq_mod]
    omega
  · simp only
    rw [BitVec.sshiftRight_eq_of_msb_false]
    · apply BitVec.eq_of_toNat_eq
      rw [BitVec.toNat_ushiftRight, e, BitVec.toNat_ofNat, Nat.shiftRight_eq_div_pow]
      omega
    · rw [BitVec.msb_eq_false_iff_two_mul_lt, e]
      omega

theorem toInt_ofNat (a : Nat) (ha : a < 2 ^ 31) : (BitVec.ofNat 32 a).toInt = a := by
  rw [BitVec.toInt_ofNat', Int.bmod_eq_of_le] <;> omega

/-! ## The claims -/

/-- a field in a struct that is solved: what is stored is its type and its place -/
theorem field_at (hs : solveAll decls [] = some types) {k i : Nat} {ms : List Ty} {t : Ty} {a c n : Nat} (hd : decls[k]? = some ⟨.struct, ms⟩)
    (hi : ms[i]? = some t) (ha : Count decls (ms.take i) a) (hc : Count decls [t] c) (hn : Count decls [.user k] n) :
    ∃ s f, types[k]? = some s ∧ s.flatCount = BitVec.ofNat 32 n ∧ s.fields[i]? = some f ∧ s.fields.length ≤ ms.length ∧
      f = ⟨t, pack (BitVec.ofNat 32 a) (BitVec.ofNat 32 c)⟩ := by
  obtain ⟨s, h1, -, h2⟩ := solved hs hd
  simp only [solveStruct, Option.map_eq_some_iff] at h2
  obtain ⟨⟨fs, tot⟩, hl, rfl⟩ := h2
  have hm := (Count.struct_iff hd).1 hn
  have hf := layout_fields hs hm hl hi ha hc
  rw [BitVec.zero_add] at hf
  have len : ∀ (ts : List Ty) (sum : BitVec 32) (r : List Field × BitVec 32), layout types ts sum = some r → r.1.length ≤ ts.length := by
    intro ts
    induction ts with
    | nil => intro sum r h; unfold layout at h; cases h; simp
    | cons t ts ih =>
      intro sum r h
      obtain ⟨c, fs, -, h, e⟩ := layout_cons (fields := r.1) (total := r.2) h
      rw [e]
      have := ih _ _ h
      simp only [List.length_cons] at this ⊢
      omega
  refine ⟨_, _, h1, ?_, hf, len _ _ _ hl, rfl⟩
  have := layout_count hs hm hl
  simpa using this

/-- **C107 (types).** Every type that is declared has a count, and what is stored is that one, as a number of 32 bits. -/
theorem C107_counted (hs : solveAll decls [] = some types) (k : Nat) (hk : k < decls.length) :
    ∃ n, Count decls [.user k] n ∧ (∀ m, Count decls [.user k] m → m = n) ∧ getFlatCount types (.user k) = some (BitVec.ofNat 32 n) := by
  obtain ⟨s, h1, -⟩ := solved hs (List.getElem?_eq_getElem hk)
  have hg : getFlatCount types (.user k) = some s.flatCount := by simp [getFlatCount, h1]
  obtain ⟨n, hn⟩ := counts hs types.length (.user k) (by rw [List.take_length, hg]; rfl)
  exact ⟨n, hn, fun m hm => hm.inj hn, by rw [hg, count_one hs hn hg]⟩

/-- **C107 (the packed place).** If the struct has fewer than 2^15 parts, each field's number reads back as its place: after the parts of the fields before
it, and as many as its type has. -/
theorem C107_reads_back_partial (hs : solveAll decls [] = some types) {k i : Nat} {ms : List Ty} {t : Ty} {a c n : Nat} (hd : decls[k]? = some ⟨.struct, ms⟩)
    (hi : ms[i]? = some t) (ha : Count decls (ms.take i) a) (hc : Count decls [t] c) (hn : Count decls [.user k] n) (hlt : n < 2 ^ 15) :
    ∃ s f, types[k]? = some s ∧ s.fields[i]? = some f ∧ f.ty = t ∧ (unpack f.packed).1.toNat = a ∧ (unpack f.packed).2.toInt = c ∧ a + c ≤ n := by
  obtain ⟨s, f, h1, -, h2, -, rfl⟩ := field_at hs hd hi ha hc hn
  obtain ⟨a', c', ha', hc', hle, -⟩ := ((Count.struct_iff hd).1 hn).split hi
  rw [← ha.inj ha', ← hc.inj hc'] at hle
  refine ⟨s, _, h1, h2, rfl, ?_, ?_, hle⟩
  · rw [unpack_pack a c (by omega) (by omega), BitVec.toNat_ofNat, Nat.mod_eq_of_lt (by omega)]
  · rw [unpack_pack a c (by omega) (by omega), toInt_ofNat c (by omega)]

/-- the lifetime of one path in one region -/
def one (r : BitVec 32) (i : SPath) (count offset : Nat) : Str := encode [(r, [i ++ [⟨count, offset⟩]])]

theorem one_valid {r : BitVec 32} {i : SPath} {c o : Nat} (hp : ValidPath (i ++ [⟨c, o⟩])) : Valid [(r, [i ++ [⟨c, o⟩]])] :=
  valid_cons (Or.inr ⟨by simp, by simpa using hp⟩) (by simp) valid_nil

theorem one_field {r : BitVec 32} {i : SPath} {c o c' o' : Nat} (hp : ValidPath (i ++ [⟨c, o⟩])) (hc' : 0 < c' ∧ c' < 2 ^ 31) (ho : o + o' < 2 ^ 31) :
    Lifetime_op_field (one r i c o) c' o' = some (one r i c' (o + o')) := by
  have hw : ([i ++ [⟨c, o⟩]] : Paths) ≠ whole := whole_not_valid (by simpa using hp)
  have fit : Fits [(r, [i ++ [⟨c, o⟩]])] o' := by
    intro e he _ j y hj
    rw [List.mem_singleton] at he
    subst he
    rw [List.mem_singleton] at hj
    have : y = ⟨c, o⟩ := by
      have := congrArg List.getLast? hj
      simpa using this
    rw [this]; exact ho
  unfold one
  rw [Lifetime_op_field_enc (one_valid hp) hc' fit]
  unfold opA
  simp only [List.map_cons, List.map_nil]
  rw [if_neg hw, fieldPath_snoc]

/-- the lifetime of a chain of fields is the part of the value's own that they are -/
theorem chain_at (hs : solveAll decls [] = some types) (static : Str) {t : Ty} {p : List Nat} {o c : Nat} {u : Ty} (h : At decls t p o c u) (hc : 0 < c)
    {n : Nat} (hn : Count decls [t] n) (hlt : n < 2 ^ 15) (r : BitVec 32) (i : SPath) (x : Nat) (hp : ValidPath (i ++ [⟨n, x⟩])) (hx : x + n < 2 ^ 31) :
    chain types static t p (one r i n x) = some (one r i c (x + o)) := by
  induction h generalizing n x with
  | self h => rw [hn.inj h]; rfl
  | @field k j ms t p a o c u hd hi ha h ih =>
    obtain ⟨a', c', ha', hc', hle, -⟩ := ((Count.struct_iff hd).1 hn).split hi
    have := ha.inj ha'
    subst this
    obtain ⟨s, f, h1, -, h2, -, rfl⟩ := field_at hs hd hi ha hc' hn
    have hw := h.within hc'
    unfold chain
    rw [h1]
    simp only [h2]
    have hf : fieldOf static (one r i n x) ⟨t, pack (BitVec.ofNat 32 a) (BitVec.ofNat 32 c')⟩ = some (one r i c' (x + a)) := by
      unfold fieldOf
      rw [unpack_pack a c' (by omega) (by omega)]
      simp only
      rw [if_neg, if_pos, BitVec.toNat_ofNat, BitVec.toNat_ofNat, Nat.mod_eq_of_lt (by omega), Nat.mod_eq_of_lt (by omega)]
      · exact one_field hp ⟨by omega, by omega⟩ (by omega)
      · rw [toInt_ofNat a (by omega), toInt_ofNat c' (by omega)]; omega
      · intro hz
        have := congrArg BitVec.toNat hz
        rw [BitVec.toNat_ofNat, Nat.mod_eq_of_lt (by omega)] at this
        simp at this
        omega
    rw [hf]
    simp only
    rw [ih hc hc' (by omega) (x + a) (by rw [valid_snoc] at hp ⊢; exact ⟨hp.1, by simp only; omega, by simp only; omega, by simp only; omega⟩) (by omega)]
    rw [Nat.add_assoc]

theorem chain_valid {i : SPath} {n x o c : Nat} (hp : ValidPath (i ++ [⟨n, x⟩])) (hx : x + n < 2 ^ 31) (hw : o + c ≤ n) (hc : 0 < c) :
    ValidPath (i ++ [⟨c, x + o⟩]) := by
  rw [valid_snoc] at hp ⊢
  exact ⟨hp.1, by simp only; omega, by simp only; omega, by simp only; omega⟩

theorem one_inter {r : BitVec 32} {i : SPath} {c o c' o' : Nat} (h : ValidPath (i ++ [⟨c, o⟩])) (h' : ValidPath (i ++ [⟨c', o'⟩])) :
    ∃ y, Lifetime_hasInter (one r i c o) (one r i c' o') = some y ∧ (y = true ↔ (o < o' + c' ∧ o' < o + c)) := by
  obtain ⟨y, hy, hiff⟩ := C31_hasInter (one_valid (r := r) h) (one_valid (r := r) h')
  refine ⟨y, hy, hiff.trans ?_⟩
  have den : ∀ {c o : Nat}, ValidPath (i ++ [⟨c, o⟩]) → ∀ r' q, denotes [(r, [i ++ [⟨c, o⟩]])] r' q ↔ (r' = r ∧ covers (i ++ [⟨c, o⟩]) q) := by
    intro c o hv r' q
    have hw : ([i ++ [⟨c, o⟩]] : Paths) ≠ whole := whole_not_valid (by simpa using hv)
    unfold denotes
    constructor
    · rintro ⟨ps, hm, h⟩
      rw [List.mem_singleton, Prod.mk.injEq] at hm
      obtain ⟨rfl, rfl⟩ := hm
      rcases h with h | ⟨p, hp, h⟩
      · exact absurd h hw
      · rw [List.mem_singleton] at hp; subst hp; exact ⟨rfl, h⟩
    · rintro ⟨rfl, h⟩
      exact ⟨_, List.mem_singleton.2 rfl, .inr ⟨_, List.mem_singleton.2 rfl, h⟩⟩
  have pos : ∀ {c o : Nat}, ValidPath (i ++ [⟨c, o⟩]) → 0 < c := by
    intro c o hv
    rw [valid_snoc] at hv
    exact hv.2.1
  have tail : ∀ {c o : Nat} {z : Nat} {q : List Nat}, covers [⟨c, o⟩] (z :: q) ↔ (o ≤ z ∧ z < o + c) := by
    intro c o z q
    simp [covers]
  constructor
  · rintro ⟨r', q, ha, hb⟩
    obtain ⟨-, ha⟩ := (den h r' q).1 ha
    obtain ⟨-, hb⟩ := (den h' r' q).1 hb
    rw [covers_append] at ha hb
    have ha := ha.2
    have hb := hb.2
    cases hq : q.drop i.length with
    | nil => rw [hq] at ha; exact ha.elim
    | cons z q' =>
      rw [hq, tail] at ha hb
      omega
  · intro hov
    -- a place in both
    have pre : ∃ q : List Nat, q.length = i.length ∧ covers i q := by
      have : ∀ j : SPath, (∀ s ∈ j, s.flatCount = 1) → ∃ q : List Nat, q.length = j.length ∧ covers j q := by
        intro j
        induction j with
        | nil => intro _; exact ⟨[], rfl, trivial⟩
        | cons s j ih =>
          intro hj
          obtain ⟨q, hl, hq⟩ := ih (fun s' hs' => hj s' (List.mem_cons_of_mem _ hs'))
          exact ⟨s.flatOffset :: q, by simp [hl], Nat.le_refl _, by rw [hj s (List.mem_cons_self)]; omega, hq⟩
      rw [valid_snoc] at h
      exact this i (fun s hs' => (h.1 s hs').1)
    obtain ⟨q, hl, hq⟩ := pre
    have hdrop : (q ++ [max o o']).drop i.length = [max o o'] := by rw [← hl]; simp
    have hcov : covers i (q ++ [max o o']) := by
      have : ∀ (j : SPath) (q e : List Nat), covers j q → covers j (q ++ e) := by
        intro j
        induction j with
        | nil => intros; trivial
        | cons s j ih =>
          intro q e hq
          cases q with
          | nil => exact hq.elim
          | cons z q => exact ⟨hq.1, hq.2.1, ih q e hq.2.2⟩
      exact this i q _ hq
    have p1 := pos h
    have p2 := pos h'
    refine ⟨r, q ++ [max o o'], (den h r _).2 ⟨rfl, ?_⟩, (den h' r _).2 ⟨rfl, ?_⟩⟩
    · rw [covers_append, hdrop, tail]; exact ⟨hcov, by omega⟩
    · rw [covers_append, hdrop, tail]; exact ⟨hcov, by omega⟩

/-- **C107 (different fields).** For a value with fewer than 2^15 parts: the lifetimes of two chains of fields of it overlap exactly if one is a field of the
other, or they are the same. -/
theorem C107_overlap_partial (hs : solveAll decls [] = some types) (static : Str) {t : Ty} {p q : List Nat} {o c o' c' : Nat} {u u' : Ty}
    (h : At decls t p o c u) (h' : At decls t q o' c' u') (hc : 0 < c) (hc' : 0 < c') {n : Nat} (hn : Count decls [t] n) (hlt : n < 2 ^ 15)
    (r : BitVec 32) (i : SPath) (x : Nat) (hp : ValidPath (i ++ [⟨n, x⟩])) (hx : x + n < 2 ^ 31) :
    ∃ a b y, chain types static t p (one r i n x) = some a ∧ chain types static t q (one r i n x) = some b ∧
      Lifetime_hasInter a b = some y ∧ (y = true ↔ (p <+: q ∨ q <+: p)) := by
  have w := h.within hn
  have w' := h'.within hn
  obtain ⟨y, hy, hiff⟩ := one_inter (r := r) (chain_valid hp hx w hc) (chain_valid hp hx w' hc')
  refine ⟨_, _, y, chain_at hs static h hc hn hlt r i x hp hx, chain_at hs static h' hc' hn hlt r i x hp hx, hy, hiff.trans ?_⟩
  rw [← At.overlap h h' hc hc' hn]
  omega

/-- **C107 (the lifetime).** The lifetime of a chain of fields is the part of the value's lifetime that the field is. -/
theorem C107_place_partial (hs : solveAll decls [] = some types) (static : Str) {t : Ty} {p : List Nat} {o c : Nat} {u : Ty} (h : At decls t p o c u)
    (hc : 0 < c) {n : Nat} (hn : Count decls [t] n) (hlt : n < 2 ^ 15) (r : BitVec 32) (i : SPath) (x : Nat) (hp : ValidPath (i ++ [⟨n, x⟩]))
    (hx : x + n < 2 ^ 31) :
    ∃ a, chain types static t p (encode [(r, [i ++ [⟨n, x⟩]])]) = some a ∧ a = encode [(r, [i ++ [⟨c, x + o⟩]])] ∧ o + c ≤ n :=
  ⟨_, chain_at hs static h hc hn hlt r i x hp hx, rfl, h.within hn⟩

/-! ## The place printed -/

theorem pick_at (offset : BitVec 32) (fields : List Field) (i s : Nat) (f : Field) (hf : fields[i]? = some f)
    (hi : ((unpack f.packed).1 + (unpack f.packed).2).toInt > offset.toInt)
    (hb : ∀ (j : Nat) (g : Field), j < i → fields[j]? = some g → ((unpack g.packed).1 + (unpack g.packed).2).toInt ≤ offset.toInt) :
    pick fields offset s = some (s + i, f) := by
  induction fields generalizing i s with
  | nil => simp at hf
  | cons g fs ih =>
    unfold pick
    cases i with
    | zero =>
      simp only [List.getElem?_cons_zero, Option.some.injEq] at hf
      subst hf
      simp only
      rw [if_pos hi]; rfl
    | succ i =>
      simp only
      rw [if_neg (by have := hb 0 g (by omega) rfl; omega), ih i (s + 1) hf (fun j g' hj hg => hb (j + 1) g' (by omega) hg)]
      rw [show s + 1 + i = s + (i + 1) by omega]

/-- **C107 (printed).** For a value with fewer than 2^15 parts: the fields printed for the place of a chain of fields lead to that same place; they are the
chain, but for the fields at its end that are all of what they are in. -/
theorem C107_printed_partial (hs : solveAll decls [] = some types) {t : Ty} {p : List Nat} {o c : Nat} {u : Ty} (h : At decls t p o c u) (hc : 0 < c)
    {n : Nat} (hn : Count decls [t] n) (hlt : n < 2 ^ 15) (fuel : Nat) (hfuel : p.length < fuel) :
    ∃ q v, explain types fuel t (BitVec.ofNat 32 c) (BitVec.ofNat 32 o) = q ∧ q <+: p ∧ At decls t q o c v := by
  induction h generalizing n fuel with
  | @self t c h =>
    refine ⟨[], t, ?_, List.nil_prefix, .self h⟩
    obtain ⟨fuel, rfl⟩ : ∃ f, fuel = f + 1 := ⟨fuel - 1, by omega⟩
    unfold explain
    cases t with
    | user k =>
      simp only
      cases hk : types[k]? with
      | none => rfl
      | some s =>
        have := count_one hs h (x := s.flatCount) (by simp [getFlatCount, hk])
        simp only
        rw [if_pos (by rw [this])]
    | _ => rfl
  | @field k j ms t p a o c u hd hi ha h ih =>
    obtain ⟨a', m, ha', hm, hle, -⟩ := ((Count.struct_iff hd).1 hn).split hi
    have := ha.inj ha'
    subst this
    obtain ⟨s, f, h1, hcount, h2, hlen, rfl⟩ := field_at hs hd hi ha hm hn
    have hw := h.within hm
    obtain ⟨fuel, rfl⟩ : ∃ f, fuel = f + 1 := ⟨fuel - 1, by simp only [List.length_cons] at hfuel; omega⟩
    unfold explain
    simp only [h1]
    by_cases hge : (BitVec.ofNat 32 c).toInt ≥ s.flatCount.toInt
    · rw [if_pos hge]
      rw [hcount, toInt_ofNat c (by omega), toInt_ofNat n (by omega)] at hge
      have e1 : a + o = 0 := by omega
      have e2 : c = n := by omega
      exact ⟨[], .user k, rfl, List.nil_prefix, by rw [e1, e2]; exact .self hn⟩
    · rw [if_neg hge]
      have unp := unpack_pack a m (by omega) (by omega)
      have hpick : pick s.fields (BitVec.ofNat 32 (a + o)) 0 = some (0 + j, ⟨t, pack (BitVec.ofNat 32 a) (BitVec.ofNat 32 m)⟩) := by
        apply pick_at _ _ _ _ _ h2
        · simp only
          rw [unp]
          simp only
          rw [← BitVec.ofNat_add, toInt_ofNat (a + m) (by omega), toInt_ofNat (a + o) (by omega)]
          omega
        · intro j' g hj' hg
          have hj2 : j' < ms.length := by
            have := (List.getElem?_eq_some_iff.1 hg).1
            omega
          obtain ⟨b, d, hb, hd', -, hrest⟩ := ((Count.struct_iff hd).1 hn).split (List.getElem?_eq_getElem hj2)
          have hbd := hrest j a hj' ha
          obtain ⟨s', f', k1, -, k2, -, rfl⟩ := field_at hs hd (List.getElem?_eq_getElem hj2) hb hd' hn
          rw [h1] at k1
          cases k1
          rw [k2] at hg
          cases hg
          simp only
          rw [unpack_pack b d (by omega) (by omega)]
          simp only
          rw [← BitVec.ofNat_add, toInt_ofNat (b + d) (by omega), toInt_ofNat (a + o) (by omega)]
          omega
      rw [hpick, Nat.zero_add]
      simp only
      rw [unp]
      simp only
      have hsub : BitVec.ofNat 32 (a + o) - BitVec.ofNat 32 a = BitVec.ofNat 32 o := by
        rw [BitVec.ofNat_add, BitVec.add_comm, BitVec.add_sub_cancel]
      rw [hsub]
      obtain ⟨q, v, e, hpre, hat⟩ := ih hc hm (by omega) fuel (by simp only [List.length_cons] at hfuel; omega)
      exact ⟨j :: q, v, by rw [e], List.cons_prefix_cons.2 ⟨rfl, hpre⟩, .field hd hi ha hat⟩

end Verif.Field

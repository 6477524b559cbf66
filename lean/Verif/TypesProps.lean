import Verif.Types
import Verif.CanonTheorems
import Verif.LifetimeProps
/-! # C61, C62: assignability of types; relaxing -/
namespace Verif.Types
open Verif

/-- a type whose name is well formed -/
def Named (t : T) (c : Canon.Ty) : Prop := t.canon = c.render ∧ c.Ok

theorem subset_iff {w : Nat} (h g : BitVec w) : (h &&& g == h) = true ↔ ∀ i, h.getLsbD i = true → g.getLsbD i = true := by
  rw [beq_iff_eq]
  constructor
  · intro e i hi
    rw [← e, BitVec.getLsbD_and, Bool.and_eq_true] at hi
    exact hi.2
  · intro h1
    apply BitVec.eq_of_getLsbD_eq
    intro i hi
    rw [BitVec.getLsbD_and]
    cases h2 : h.getLsbD i with
    | false => rfl
    | true => rw [h1 i h2]; rfl

theorem subset_self {w : Nat} (h : BitVec w) : (h &&& h == h) = true := (subset_iff h h).2 fun _ e => e

/-- when names, qualifiers and facts match -/
theorem assign_of {h g : T} (hv : (h.vfacts &&& g.vfacts == h.vfacts) = true) (hq : (h.quals &&& g.quals == h.quals) = true)
    (hc : Canon.isCanonAssignable h.canon g.canon = .ok true) (hl : h.lifetime = [] ∨ g.lifetime ≠ []) (dz aa : Bool) :
    isAssignable h g dz aa = some true := by
  unfold isAssignable isAssignableAsArgument
  rw [if_pos (show areVFactsAssignable h.vfacts g.vfacts = true from hv), if_pos (show areQualsAssignable h.quals g.quals = true from hq), hc]
  simp only [Except.toOption, Option.bind_eq_bind, Option.bind_some, Bool.true_or, Bool.true_and]
  congr 1
  rw [Bool.or_eq_true]
  right
  unfold isLifetimeAssignable
  rcases hl with h1 | h1
  · rw [h1]; rfl
  · rw [Bool.or_eq_true]; right; simpa using h1

/-- **C61** Every type accepts itself. -/
theorem assignable_refl (t : T) (c : Canon.Ty) (h : Named t c) (dz aa : Bool) : isAssignable t t dz aa = some true := by
  refine assign_of (subset_self _) (subset_self _) ?_ ?_ dz aa
  · rw [h.1]; exact Canon.assignable_refl c h.2
  · by_cases hl : t.lifetime = []
    · exact Or.inl hl
    · exact Or.inr hl

/-- taking an acceptance apart -/
theorem assign_parts {h g : T} {dz aa : Bool} (e : isAssignable h g dz aa = some true) :
    (h.vfacts &&& g.vfacts == h.vfacts) = true ∧
    (((h.quals &&& g.quals == h.quals) = true ∧ Canon.isCanonAssignable h.canon g.canon = .ok true) ∨
      (dz = false ∧ is_zeroes g = true ∧ h.quals &&& q_mutref = 0#32 ∧ is_never h = false)) ∧
    (aa = true ∨ h.lifetime = [] ∨ g.lifetime ≠ []) := by
  unfold isAssignable isAssignableAsArgument at e
  by_cases hv : areVFactsAssignable h.vfacts g.vfacts = true
  · rw [if_pos hv] at e
    refine ⟨hv, ?_⟩
    by_cases hq : areQualsAssignable h.quals g.quals = true
    · rw [if_pos hq] at e
      cases hc : Canon.isCanonAssignable h.canon g.canon with
      | error x => rw [hc] at e; simp [Except.toOption] at e
      | ok r =>
        rw [hc] at e
        simp only [Except.toOption, Option.bind_eq_bind, Option.bind_some, Option.some.injEq, Bool.and_eq_true, Bool.or_eq_true] at e
        refine ⟨?_, ?_⟩
        · rcases e.1 with h1 | h1
          · exact Or.inl ⟨hq, by rw [h1]⟩
          · refine Or.inr ?_
            simpa [and_assoc] using h1
        · rcases e.2 with h1 | h1
          · exact Or.inl h1
          · unfold isLifetimeAssignable at h1
            rw [Bool.or_eq_true] at h1
            exact Or.inr (by simpa using h1)
    · rw [if_neg hq] at e
      simp only [Option.bind_eq_bind, Option.bind_some, Option.some.injEq, Bool.and_eq_true, Bool.or_eq_true, Bool.false_eq_true, false_or] at e
      refine ⟨Or.inr (by simpa [and_assoc] using e.1), ?_⟩
      rcases e.2 with h1 | h1
      · exact Or.inl h1
      · unfold isLifetimeAssignable at h1
        rw [Bool.or_eq_true] at h1
        exact Or.inr (by simpa using h1)
  · rw [if_neg hv] at e
    simp at e

theorem mutref_bit (q : BitVec 32) : q &&& q_mutref = 0#32 ↔ q.getLsbD 0 = false := by
  have hm : ∀ i, q_mutref.getLsbD i = decide (i = 0) := by
    intro i
    by_cases h : i < 32
    · revert i; decide
    · rw [BitVec.getLsbD_of_ge _ _ (by omega)]; simp; omega
  constructor
  · intro e
    have : (q &&& q_mutref).getLsbD 0 = (0#32).getLsbD 0 := congrArg (fun x => x.getLsbD 0) e
    have h0 : q_mutref.getLsbD 0 = true := by decide
    rw [BitVec.getLsbD_and, h0, Bool.and_true, BitVec.getLsbD_zero] at this
    exact this
  · intro e
    apply BitVec.eq_of_getLsbD_eq
    intro i _
    rw [BitVec.getLsbD_and, hm]
    by_cases h : i = 0
    · rw [h, e]; simp
    · simp [h]

/-- **C61** A mutable reference is accepted only from a mutable reference: mutability cannot be gained by passing a value
on. -/
theorem mutable_needs_mutable (h g : T) (dz aa : Bool) (hm : h.quals &&& q_mutref ≠ 0#32) (e : isAssignable h g dz aa = some true) :
    g.quals &&& q_mutref ≠ 0#32 := by
  obtain ⟨_, h2, _⟩ := assign_parts e
  rcases h2 with h2 | h2
  · rw [Ne, mutref_bit, Bool.not_eq_false] at hm ⊢
    exact (subset_iff _ _).1 h2.1 0 hm
  · exact absurd h2.2.2.1 hm

/-- **C61** Except for arguments, a reference is accepted only from a reference. -/
theorem reference_needs_reference (h g : T) (dz : Bool) (hr : h.lifetime ≠ []) (e : isAssignable h g dz false = some true) :
    g.lifetime ≠ [] := by
  obtain ⟨_, _, h3⟩ := assign_parts e
  rcases h3 with h3 | h3 | h3
  · cases h3
  · exact absurd h3 hr
  · exact h3

/-- **C61** Nothing but `never` (possibly labelled) is accepted as `never`: not even zeroes. -/
theorem nothing_fits_never (h g : T) (c : Canon.Ty) (hh : h.canon = str "never") (hg : Named g c) (dz aa : Bool)
    (e : isAssignable h g dz aa = some true) : c = .name (str "never") ∨ ∃ ls, c = .gen (str "never") ls := by
  obtain ⟨_, h2, _⟩ := assign_parts e
  rcases h2 with h2 | h2
  · rw [hh, hg.1] at h2
    refine (Canon.plain_host (str "never") ⟨by decide, by decide, by decide⟩ c hg.2).1 h2.2
  · have : is_never h = true := by unfold is_never; rw [hh]; decide
    rw [this] at h2
    exact absurd h2.2.2.2 (by decide)

/-- **C61** Zeroes are accepted by every value type that promises nothing about the value, except `never`. -/
theorem zeroes_fit (h : T) (c : Canon.Ty) (hc : Named h c) (hm : h.quals &&& q_mutref = 0#32) (hn : is_never h = false)
    (hv : h.vfacts = 0) (hl : h.lifetime = []) (aa : Bool) : isAssignable h t_zeroes false aa = some true := by
  have hz : Canon.Ty.Ok (.name (str "zeroes")) := ⟨by decide, by decide, by decide⟩
  have hr := Canon.assignable_eq_spec c (.name (str "zeroes")) hc.2 hz
  rw [Canon.name_render, ← hc.1] at hr
  unfold isAssignable isAssignableAsArgument
  rw [if_pos (by unfold areVFactsAssignable; rw [hv]; decide)]
  have h1 : t_zeroes.canon = str "zeroes" := rfl
  have h2 : is_zeroes t_zeroes = true := by decide
  rw [h1, hr, h2, hn, hm]
  have h3 : isLifetimeAssignable h.lifetime t_zeroes.lifetime = true := by rw [hl]; rfl
  rw [h3]
  split <;> simp [Except.toOption]

/-! ### super types -/

theorem union_nonempty {a b : Lifetime.Regions} (ha : Lifetime.Valid a) (hb : Lifetime.Valid b) :
    ∃ u, Lifetime.Lifetime_union (Lifetime.encode a) (Lifetime.encode b) = some u := by
  obtain ⟨c, e, _⟩ := Lifetime.C30_union ha hb
  exact ⟨_, e⟩

/-- a type with a well-formed lifetime -/
def Lived (t : T) : Prop := ∃ l, Lifetime.Valid l ∧ t.lifetime = Lifetime.encode l

theorem super_eq (n : Nat) (a b : T) (la : Lived a) (lb : Lived b) (dz : Bool)
    (r : Str) (hr : r ≠ []) (e : Canon.trySuper a.canon b.canon = .ok r) :
    ∃ lt, trySuper (n + 1) a b dz = some (some ⟨a.quals &&& b.quals, a.vfacts &&& b.vfacts, r, lt⟩) ∧
      (lt = [] ∨ (a.lifetime ≠ [] ∧ b.lifetime ≠ [])) := by
  unfold trySuper
  rw [e]
  simp only [Except.toOption, Option.bind_eq_bind, Option.bind_some]
  rw [if_neg hr]
  by_cases hl : (a.lifetime.isEmpty || b.lifetime.isEmpty) = true
  · rw [if_pos hl]
    exact ⟨[], rfl, Or.inl rfl⟩
  · rw [if_neg hl]
    obtain ⟨x, hx, ex⟩ := la
    obtain ⟨y, hy, ey⟩ := lb
    obtain ⟨u, eu⟩ := union_nonempty hx hy
    rw [ex, ey, eu]
    refine ⟨u, rfl, Or.inr ?_⟩
    rw [ex, ey] at hl
    simpa using hl

theorem accepts_meet (a b : T) (ca cb : Canon.Ty) (ha : Named a ca) (hb : Named b cb) (r : Str) (hr : r ≠ [])
    (e : Canon.trySuper a.canon b.canon = .ok r) (lt : Str) (hlt : lt = [] ∨ (a.lifetime ≠ [] ∧ b.lifetime ≠ [])) :
    let s : T := ⟨a.quals &&& b.quals, a.vfacts &&& b.vfacts, r, lt⟩
    isAssignable s a = some true ∧ isAssignable s b = some true := by
  rw [ha.1, hb.1] at e
  obtain ⟨_, h1, h2⟩ := Canon.super_accepts_both ca cb ha.2 hb.2 r e hr
  have sl : ∀ {w : Nat} (x y : BitVec w), ((x &&& y) &&& x == (x &&& y)) = true := by
    intro w x y
    rw [subset_iff]
    intro i hi
    rw [BitVec.getLsbD_and, Bool.and_eq_true] at hi
    exact hi.1
  have sr : ∀ {w : Nat} (x y : BitVec w), ((x &&& y) &&& y == (x &&& y)) = true := by
    intro w x y
    rw [subset_iff]
    intro i hi
    rw [BitVec.getLsbD_and, Bool.and_eq_true] at hi
    exact hi.2
  refine ⟨assign_of (sl _ _) (sl _ _) (by rw [ha.1]; exact h1) ?_ _ _, assign_of (sr _ _) (sr _ _) (by rw [hb.1]; exact h2) ?_ _ _⟩
  · rcases hlt with h | h
    · exact Or.inl h
    · exact Or.inr h.1
  · rcases hlt with h | h
    · exact Or.inl h
    · exact Or.inr h.2

/-- **C61** The common supertype of two types, neither of them zeroes, accepts both. -/
theorem super_accepts_both (n : Nat) (a b : T) (ca cb : Canon.Ty) (ha : Named a ca) (hb : Named b cb) (la : Lived a) (lb : Lived b)
    (za : is_zeroes a = false) (zb : is_zeroes b = false) (dz : Bool) (s : T) (h : trySuper (n + 1) a b dz = some (some s)) :
    isAssignable s a = some true ∧ isAssignable s b = some true := by
  cases hc : Canon.trySuper a.canon b.canon with
  | error x => unfold trySuper at h; rw [hc] at h; simp [Except.toOption] at h
  | ok r =>
    by_cases hr : r = []
    · unfold trySuper at h
      rw [hc, za, zb] at h
      simp [Except.toOption, hr] at h
    · obtain ⟨lt, e, hlt⟩ := super_eq n a b la lb dz r hr hc
      rw [e] at h
      cases h
      exact accepts_meet a b ca cb ha hb r hr hc lt hlt

theorem super_self (c : Canon.Ty) (h : c.Ok) : Canon.trySuper c.render c.render = .ok c.render := by
  unfold Canon.trySuper
  rw [if_neg (by omega)]
  simp only [Canon.assignable_refl c h, if_true]

theorem definit_canon (b : T) (h : is_never b = false) (x : Bool) : (definitType b x).canon = b.canon := by
  unfold definitType
  rw [h]
  simp only [Bool.false_eq_true, if_false]
  split <;> split <;> split <;> rfl

theorem definit_quals (b : T) (h : is_never b = false) (x : Bool) : (definitType b x).quals = b.quals &&& ~~~q_mutref := by
  unfold definitType
  rw [h]
  simp only [Bool.false_eq_true, if_false]
  split <;> split <;> split <;> rfl

theorem definit_lifetime (b : T) (h : is_never b = false) (x : Bool) (hl : b.lifetime = []) : (definitType b x).lifetime = [] := by
  unfold definitType
  rw [h]
  simp only [Bool.false_eq_true, if_false, hl, List.isEmpty_nil, if_true]
  split <;> split <;> rfl

/-- **C61**, in part: the supertype of zeroes and a value type is that type, and accepts both - provided the zeroes have the
facts the other type promises.  Missing: references, for which zeroes (a value) are refused. -/
theorem super_of_zeroes_partial (n : Nat) (z b : T) (cz cb : Canon.Ty) (hz : Named z cz) (hb : Named b cb) (zz : is_zeroes z = true)
    (nb : is_never b = false) (lb : b.lifetime = []) (hne : Canon.trySuper z.canon b.canon = .ok []) (hv : (b.vfacts &&& z.vfacts == b.vfacts) = true) :
    ∃ s, trySuper (n + 2) z b false = some (some s) ∧ s.canon = b.canon ∧ isAssignable s z = some true ∧ isAssignable s b = some true := by
  have hD : Named (definitType b true) cb := ⟨(definit_canon b nb true).trans hb.1, hb.2⟩
  have lived : ∀ t : T, t.lifetime = [] → Lived t := fun t h => ⟨[], Lifetime.valid_nil, h⟩
  have hs : Canon.trySuper b.canon (definitType b true).canon = .ok b.canon := by
    rw [definit_canon b nb, hb.1]; exact super_self cb hb.2
  have hne' : b.canon ≠ [] := by rw [hb.1]; exact Canon.plain_ne cb hb.2
  obtain ⟨lt, e, hlt⟩ := super_eq n b (definitType b true) (lived b lb) (lived _ (definit_lifetime b nb true lb)) false b.canon hne' hs
  have hlt' : lt = [] := by
    rcases hlt with h | h
    · exact h
    · exact absurd lb h.1
  refine ⟨⟨b.quals &&& (definitType b true).quals, b.vfacts &&& (definitType b true).vfacts, b.canon, lt⟩, ?_, rfl, ?_, (accepts_meet b (definitType b true) cb cb hb hD b.canon hne' hs lt hlt).1⟩
  · show trySuper (n + 1 + 1) z b false = _
    rw [trySuper, hne]
    simp only [Except.toOption, Option.bind_eq_bind, Option.bind_some, if_true, zz, Bool.not_false, Bool.and_self]
    rw [e]
  · unfold isAssignable isAssignableAsArgument
    dsimp only
    have hV : areVFactsAssignable (b.vfacts &&& (definitType b true).vfacts) z.vfacts = true := by
      unfold areVFactsAssignable
      rw [subset_iff] at hv ⊢
      intro i hi
      rw [BitVec.getLsbD_and, Bool.and_eq_true] at hi
      exact hv i hi.1
    rw [if_pos hV]
    have hN : is_never ⟨b.quals &&& (definitType b true).quals, b.vfacts &&& (definitType b true).vfacts, b.canon, lt⟩ = false := nb
    have hM : (b.quals &&& (definitType b true).quals) &&& q_mutref = 0#32 := by
      rw [definit_quals b nb, mutref_bit]
      have : (~~~q_mutref).getLsbD 0 = false := by decide
      rw [BitVec.getLsbD_and, BitVec.getLsbD_and, this, Bool.and_false, Bool.and_false]
    rw [hN, hM, zz, hlt']
    have hr := Canon.assignable_eq_spec cb cz hb.2 hz.2
    rw [← hb.1, ← hz.1] at hr
    rw [hr]
    split <;> simp [Except.toOption, isLifetimeAssignable]

/-- **C61 is false** of zeroes and `never`: the search for their supertype never ends. -/
theorem super_diverges (z : T) (hz : z.canon = str "zeroes") (b : T) (hb : b.canon = str "never") (n : Nat) :
    trySuper n z b false = none ∧ trySuper n b z false = none := by
  have c1 : Canon.trySuper (str "zeroes") (str "never") = .ok [] := by decide +kernel
  have c2 : Canon.trySuper (str "never") (str "zeroes") = .ok [] := by decide +kernel
  induction n generalizing z b with
  | zero => exact ⟨rfl, rfl⟩
  | succ n ih =>
    have hzz : is_zeroes z = true := by unfold is_zeroes; rw [hz]; decide
    have hbz : is_zeroes b = false := by unfold is_zeroes; rw [hb]; decide
    have hd : (definitType b true).canon = str "zeroes" := by
      unfold definitType
      have : is_never b = true := by unfold is_never; rw [hb]; decide
      rw [this]
      rfl
    have := ih (definitType b true) hd b hb
    constructor
    · rw [trySuper, hz, hb, c1]
      simp only [Except.toOption, Option.bind_eq_bind, Option.bind_some, if_true, hzz, Bool.not_false, Bool.and_self]
      exact this.2
    · rw [trySuper, hz, hb, c2]
      simp only [Except.toOption, Option.bind_eq_bind, Option.bind_some, if_true, hzz, hbz, Bool.not_false, Bool.and_self, Bool.false_and, Bool.false_eq_true, if_false]
      exact this.2

/-! ### intersections -/

/-- **C61**, in part: the intersection of two types of the same name can be used as both.  Missing: different names, where
it is false (`Canon.intersection_wrong`). -/
theorem intersection_usable_partial (a b : T) (c : Canon.Ty) (ha : Named a c) (hb : Named b c) (s : T)
    (h : tryIntersect a b = some (some s)) : isAssignable a s = some true ∧ isAssignable b s = some true := by
  have hself : Canon.tryIntersect a.canon b.canon = .ok c.render := by
    rw [ha.1, hb.1]
    unfold Canon.tryIntersect
    rw [if_neg (by omega)]
    simp only [Canon.assignable_refl c ha.2, if_true]
  unfold tryIntersect at h
  rw [hself] at h
  simp only [Except.toOption, Option.bind_eq_bind, Option.bind_some] at h
  rw [if_neg (Canon.plain_ne c ha.2)] at h
  cases hl : Lifetime.Lifetime_inter a.lifetime b.lifetime with
  | none => rw [hl] at h; simp at h
  | some lt =>
    rw [hl] at h
    simp only [Option.bind_some] at h
    split at h
    · cases h
    · rename_i hlt
      cases h
      have ol : ∀ {w : Nat} (x y : BitVec w), (x &&& (x ||| y) == x) = true := by
        intro w x y
        rw [subset_iff]
        intro i hi
        rw [BitVec.getLsbD_or, hi]; rfl
      have or' : ∀ {w : Nat} (x y : BitVec w), (y &&& (x ||| y) == y) = true := by
        intro w x y
        rw [subset_iff]
        intro i hi
        rw [BitVec.getLsbD_or, hi]; simp
      have hlt' : lt ≠ [] ∨ (a.lifetime = [] ∧ b.lifetime = []) := by
        by_cases h1 : lt = []
        · right
          rw [h1] at hlt
          simpa using hlt
        · exact Or.inl h1
      refine ⟨assign_of (ol _ _) (ol _ _) (by rw [ha.1]; exact Canon.assignable_refl c ha.2) ?_ _ _,
        assign_of (or' _ _) (or' _ _) (by rw [hb.1]; exact Canon.assignable_refl c ha.2) ?_ _ _⟩
      · rcases hlt' with h1 | h1
        · exact Or.inr h1
        · exact Or.inl h1.1
      · rcases hlt' with h1 | h1
        · exact Or.inr h1
        · exact Or.inl h1.2

/-! ### C62: relaxing -/

/-- **C62** Relaxing a type for a slot removes exactly the qualifiers reported, all of them in the mask and none of them
required by the slot; everything else stays. -/
theorem relax_removes (t slot : T) (mask : BitVec 32) (i : Nat) (hi : i < 32) :
    let (w, t') := try_relax t slot mask
    (w.getLsbD i = true ↔ t.quals.getLsbD i = true ∧ slot.quals.getLsbD i = false ∧ mask.getLsbD i = true) ∧
    (t'.quals.getLsbD i = true ↔ t.quals.getLsbD i = true ∧ w.getLsbD i = false) ∧
    t'.vfacts = t.vfacts ∧ t'.canon = t.canon ∧ t'.lifetime = t.lifetime := by
  unfold try_relax will_relax
  simp only [BitVec.getLsbD_and, BitVec.getLsbD_not, hi, decide_true, Bool.true_and, and_self, and_true]
  cases t.quals.getLsbD i <;> cases slot.quals.getLsbD i <;> cases mask.getLsbD i <;> simp

/-- **C62** What the slot accepts it accepts after relaxing, and the other way round. -/
theorem relax_harmless (t slot : T) (mask : BitVec 32) (dz aa : Bool) :
    isAssignable slot (try_relax t slot mask).2 dz aa = isAssignable slot t dz aa := by
  have hq : areQualsAssignable slot.quals (try_relax t slot mask).2.quals = areQualsAssignable slot.quals t.quals := by
    rw [Bool.eq_iff_iff]
    unfold areQualsAssignable
    rw [subset_iff, subset_iff]
    constructor
    · intro h i hi
      have := h i hi
      by_cases h32 : i < 32
      · exact ((relax_removes t slot mask i h32).2.1.1 this).1
      · rw [BitVec.getLsbD_of_ge _ _ (by omega)] at hi; cases hi
    · intro h i hi
      have := h i hi
      by_cases h32 : i < 32
      · refine (relax_removes t slot mask i h32).2.1.2 ⟨this, ?_⟩
        cases hw : (try_relax t slot mask).1.getLsbD i with
        | false => exact hw
        | true =>
          have := ((relax_removes t slot mask i h32).1.1 hw).2.1
          rw [hi] at this; cases this
      · rw [BitVec.getLsbD_of_ge _ _ (by omega)] at hi; cases hi
  unfold isAssignable isAssignableAsArgument
  rw [hq]
  rfl

/-- **C62** The relaxed type accepts the original. -/
theorem relaxed_accepts (t slot : T) (c : Canon.Ty) (h : Named t c) (mask : BitVec 32) :
    isAssignable (try_relax t slot mask).2 t = some true := by
  refine assign_of (h := (try_relax t slot mask).2) (g := t) (show (t.vfacts &&& t.vfacts == t.vfacts) = true from subset_self _) ?_ ?_ ?_ _ _
  · rw [subset_iff]
    intro i hi
    by_cases h32 : i < 32
    · exact ((relax_removes t slot mask i h32).2.1.1 hi).1
    · rw [BitVec.getLsbD_of_ge _ _ (by omega)] at hi; cases hi
  · show Canon.isCanonAssignable t.canon t.canon = _
    rw [h.1]; exact Canon.assignable_refl c h.2
  · show t.lifetime = [] ∨ _
    by_cases hl : t.lifetime = []
    · exact Or.inl hl
    · exact Or.inr hl

/-- **C62** What a function may relax about its return type: nothing unless the result borrows from an argument; then
mutability, and copy and resize only together, and only if it borrows an argument directly. -/
theorem retval_relaxable (t : T) (l : Lifetime.Regions) (hl : Lifetime.Valid l) (e : t.lifetime = Lifetime.encode l) (relaxed : BitVec 32) :
    ∃ m, mask_retval_relaxable t relaxed = some m ∧
      ((¬ ∃ x ∈ l, Lifetime.isArgIdx x.1 = true) → m = 0#32) ∧
      ((∃ x ∈ l, Lifetime.isArgIdx x.1 = true) → ∀ i < 32, m.getLsbD i = true ↔
        relaxed.getLsbD i = true ∧ (i = 0 ∨
          (t.quals.getLsbD i = true ∧ (i = 1 ∨ i = 2) ∧
            (∃ x ∈ l, Lifetime.isArgIdx x.1 = true ∧ ∃ p ∈ x.2, p.length = 1) ∧
            ∀ j, (j = 1 ∨ j = 2) → t.quals.getLsbD j = true → relaxed.getLsbD j = true))) := by
  have hpaths : ∀ x ∈ l, Lifetime.EncPaths x.2 := fun x hx => (hl.2 x hx).enc
  unfold mask_retval_relaxable
  rw [e, Lifetime.Lifetime_each_enc l hpaths]
  simp only [Option.bind_eq_bind, Option.bind_some]
  have hfilter : (l.map fun e => (e.1, Lifetime.leb e.1.toNat, Lifetime.encPaths e.2)).filter (fun x => Lifetime.isArgIdx x.1) =
      (l.filter fun x => Lifetime.isArgIdx x.1).map fun e => (e.1, Lifetime.leb e.1.toNat, Lifetime.encPaths e.2) := by
    rw [List.filter_map]; rfl
  have hmap : ∀ l' : Lifetime.Regions, (∀ x ∈ l', Lifetime.EncPaths x.2) →
      (l'.map fun e => (e.1, Lifetime.leb e.1.toNat, Lifetime.encPaths e.2)).mapM (fun (x : BitVec 32 × Str × Str) => Lifetime.parsePaths x.2.2) =
        some (l'.map (·.2)) := by
    intro l' h'
    induction l' with
    | nil => rfl
    | cons x xs ih =>
      rw [List.map_cons, List.mapM_cons, Lifetime.parsePaths_enc x.2 (h' x (List.mem_cons_self ..)), ih fun y hy => h' y (List.mem_cons_of_mem _ hy)]
      rfl
  have hA := hmap (l.filter fun x => Lifetime.isArgIdx x.1) fun x hx => hpaths x (List.mem_filter.1 hx).1
  have : ∀ (x : List (BitVec 32 × Str × Str)), x = (l.map fun e => (e.1, Lifetime.leb e.1.toNat, Lifetime.encPaths e.2)).filter (fun x => Lifetime.isArgIdx x.1) →
      x.mapM (fun (x : BitVec 32 × Str × Str) => Lifetime.parsePaths x.2.2) = some ((l.filter fun x => Lifetime.isArgIdx x.1).map (·.2)) ∧
      x.isEmpty = (l.filter fun x => Lifetime.isArgIdx x.1).isEmpty := by
    intro x hx
    rw [hx, hfilter, hA]
    exact ⟨rfl, by simp⟩
  obtain ⟨h1, h2⟩ := this _ rfl
  rw [h1, h2]
  simp only [Option.bind_some]
  by_cases hex : ∃ x ∈ l, Lifetime.isArgIdx x.1 = true
  · have hne : (l.filter fun x => Lifetime.isArgIdx x.1).isEmpty = false := by
      obtain ⟨x, hx, hx'⟩ := hex
      rw [List.isEmpty_eq_false_iff]
      intro h0
      have : x ∈ l.filter fun x => Lifetime.isArgIdx x.1 := List.mem_filter.2 ⟨hx, hx'⟩
      rw [h0] at this
      cases this
    rw [hne]
    simp only [Bool.false_eq_true, if_false]
    refine ⟨_, rfl, fun h => absurd hex h, fun _ i hi => ?_⟩
    have hw : (((l.filter fun x => Lifetime.isArgIdx x.1).map (·.2)).any fun ps => ps.any fun p => p.length == 1) = true ↔
        ∃ x ∈ l, Lifetime.isArgIdx x.1 = true ∧ ∃ p ∈ x.2, p.length = 1 := by
      simp only [List.any_eq_true, List.mem_map, List.mem_filter, beq_iff_eq]
      constructor
      · rintro ⟨ps, ⟨x, ⟨hx, ha⟩, rfl⟩, p, hp, hlen⟩; exact ⟨x, hx, ha, p, hp, hlen⟩
      · rintro ⟨x, hx, ha, p, hp, hlen⟩; exact ⟨x.2, ⟨x, ⟨hx, ha⟩, rfl⟩, p, hp, hlen⟩
    generalize hW : (((l.filter fun x => Lifetime.isArgIdx x.1).map (·.2)).any fun ps => ps.any fun p => p.length == 1) = W at hw ⊢
    rw [← hw]
    have b0 : ∀ i < 32, q_mutref.getLsbD i = decide (i = 0) := by decide
    have b12 : ∀ i < 32, (q_rx_copy ||| q_rx_resize).getLsbD i = decide (i = 1 ∨ i = 2) := by decide
    cases W with
    | false =>
      simp only [Bool.false_eq_true, if_false, false_and, and_false, or_false, BitVec.getLsbD_or, BitVec.getLsbD_and, b0 i hi, ite_self,
        BitVec.getLsbD_zero, Bool.or_false, Bool.and_eq_true, decide_eq_true_eq]
    | true =>
      simp only [if_true, true_and]
      rw [BitVec.getLsbD_or, BitVec.getLsbD_and, b0 i hi, Bool.or_eq_true, Bool.and_eq_true, decide_eq_true_eq]
      have hsub : (relaxed &&& (t.quals &&& (q_rx_copy ||| q_rx_resize)) == t.quals &&& (q_rx_copy ||| q_rx_resize)) = true ↔
          ∀ j, (j = 1 ∨ j = 2) → t.quals.getLsbD j = true → relaxed.getLsbD j = true := by
        rw [BitVec.and_comm, subset_iff]
        constructor
        · intro h j hj ht
          apply h j
          rw [BitVec.getLsbD_and, ht, b12 j (by omega)]
          simpa using hj
        · intro h j hj
          rw [BitVec.getLsbD_and, Bool.and_eq_true] at hj
          by_cases h32 : j < 32
          · rw [b12 j h32] at hj
            exact h j (by simpa using hj.2) hj.1
          · have := hj.2
            rw [BitVec.getLsbD_of_ge _ _ (by omega)] at this; cases this
      by_cases hs : (relaxed &&& (t.quals &&& (q_rx_copy ||| q_rx_resize)) == t.quals &&& (q_rx_copy ||| q_rx_resize)) = true
      · rw [if_pos hs, BitVec.getLsbD_and, b12 i hi, Bool.and_eq_true, decide_eq_true_eq]
        have hall := hsub.1 hs
        constructor
        · rintro (h | h)
          · exact ⟨h.1, Or.inl h.2⟩
          · exact ⟨hall i h.2 h.1, Or.inr ⟨h.1, h.2, hall⟩⟩
        · rintro ⟨h1, h2 | ⟨h2, h3, _⟩⟩
          · exact Or.inl ⟨h1, h2⟩
          · exact Or.inr ⟨h2, h3⟩
      · rw [if_neg hs]
        constructor
        · rintro (h | h)
          · exact ⟨h.1, Or.inl h.2⟩
          · simp at h
        · rintro ⟨h1, h2 | ⟨h2, h3, h4⟩⟩
          · exact Or.inl ⟨h1, h2⟩
          · exact absurd (hsub.2 h4) hs
  · have hne : (l.filter fun x => Lifetime.isArgIdx x.1).isEmpty = true := by
      rw [List.isEmpty_iff, List.filter_eq_nil_iff]
      intro x hx hx'
      exact hex ⟨x, hx, hx'⟩
    rw [hne]
    exact ⟨_, rfl, fun _ => rfl, fun h => absurd h hex⟩

/-- `is_rx_resize` tests the wrong qualifier: a resizable array of uncopyable items is said not to be resizable. -/
theorem resize_test_wrong : ∃ t : T, t.quals &&& q_rx_resize ≠ 0#32 ∧ is_rx_resize t = false :=
  ⟨⟨q_rx_resize, 0, str "[0S]", []⟩, by decide, by decide⟩

/-! non-vacuity -/

theorem named_i32 : Named ⟨3, 0, str "i32", []⟩ (.name (str "i32")) := ⟨by simp only [Canon.Ty.render], by decide, by decide, by decide⟩

example : isAssignable ⟨2, 0, str "i32", []⟩ ⟨3, 0, str "i32", Lifetime.Region_TEMP⟩ = some true := by decide +kernel
example : isAssignable ⟨3, 0, str "i32", Lifetime.Region_TEMP⟩ ⟨2, 0, str "i32", []⟩ = some false := by decide +kernel
example : (try_relax ⟨7, 0, str "[0S]", []⟩ ⟨2, 0, str "[0S]", []⟩ 5) = (5, ⟨2, 0, str "[0S]", []⟩) := by decide +kernel
example : ∃ s, trySuper 2 t_zeroes ⟨2, 0, str "i32", []⟩ false = some (some s) ∧ s.canon = str "i32" :=
  ⟨⟨2, 0, str "i32", []⟩, by decide +kernel, rfl⟩

end Verif.Types

import Verif.HashGrow
import Mathlib.Data.List.Nodup
import Mathlib.Data.List.Perm.Subperm
/-!
# Buckets: the chains through `collision`
-/
namespace Verif.Hash
variable {K V : Type} [DecidableEq K]

/-- The link out of the entry at position `x`. -/
def cl (d : List (DEnt K V)) (x : Nat) : Option Nat := (d[x - 1]?).map DEnt.coll

/-- From link `a` through the positions `L` to link `b`. -/
def Seg (d : List (DEnt K V)) : Nat → List Nat → Nat → Prop
  | a, [], b => a = b
  | a, x :: xs, b => a = x ∧ x ≠ 0 ∧ ∃ c, cl d x = some c ∧ Seg d c xs b

/-- Everything in an entry but the link. -/
def core (e : DEnt K V) : K × V × Nat := (e.key, e.value, e.hash)

omit [DecidableEq K] in
theorem seg_append (d : List (DEnt K V)) (a b : Nat) (A B : List Nat) :
    Seg d a (A ++ B) b ↔ ∃ c, Seg d a A c ∧ Seg d c B b := by
  induction A generalizing a with
  | nil =>
    constructor
    · intro h; exact ⟨a, rfl, h⟩
    · rintro ⟨c, rfl, h⟩; exact h
  | cons x A ih =>
    constructor
    · rintro ⟨rfl, h0, c, hc, h⟩
      obtain ⟨c', h1, h2⟩ := (ih c).mp h
      exact ⟨c', ⟨rfl, h0, c, hc, h1⟩, h2⟩
    · rintro ⟨c', ⟨rfl, h0, c, hc, h1⟩, h2⟩
      exact ⟨rfl, h0, c, hc, (ih c).mpr ⟨c', h1, h2⟩⟩

omit [DecidableEq K] in
theorem seg_congr {d d' : List (DEnt K V)} {a b : Nat} {L : List Nat} (h : ∀ x ∈ L, cl d' x = cl d x)
    (s : Seg d a L b) : Seg d' a L b := by
  induction L generalizing a with
  | nil => exact s
  | cons x L ih =>
    obtain ⟨rfl, h0, c, hc, s⟩ := s
    exact ⟨rfl, h0, c, by rw [h a (by simp), hc], ih (fun y hy => h y (by simp [hy])) s⟩

omit [DecidableEq K] in
/-- Redirecting the last link of a segment. -/
theorem seg_redirect {d d' : List (DEnt K V)} {a b b' : Nat} {A : List Nat} {c : Nat} (s : Seg d a (A ++ [c]) b)
    (hc : c ∉ A) (h : ∀ x ∈ A, cl d' x = cl d x) (hb : cl d' c = some b') : Seg d' a (A ++ [c]) b' := by
  obtain ⟨c', s1, s2⟩ := (seg_append d a b A [c]).mp s
  obtain ⟨rfl, h0, _, _, _⟩ := s2
  exact (seg_append d' a b' A [c']).mpr ⟨c', seg_congr h s1, rfl, h0, b', hb, rfl⟩

/-- The entry at position `x` has this key. -/
def KeyAt (d : List (DEnt K V)) (x : Nat) (k : K) : Prop := ∃ e, d[x - 1]? = some e ∧ e.key = k

theorem chainFind_ok (d : List (DEnt K V)) (key : K) (n : Nat) (a : Nat) (L : List Nat) (s : Seg d a L 0)
    (hL : L ≠ []) (hn : L.length ≤ n) (coll : Nat) :
    (∃ A x B, L = A ++ x :: B ∧ KeyAt d x key ∧ (∀ y ∈ A, ¬ KeyAt d y key) ∧
      chainFind d key n a coll = .ok (some (x, A.getLast?.getD coll))) ∨
    ((∀ y ∈ L, ¬ KeyAt d y key) ∧ chainFind d key n a coll = .ok none) := by
  induction n generalizing a L coll with
  | zero =>
    cases L with
    | nil => exact absurd rfl hL
    | cons x L => simp at hn
  | succ n ih =>
    cases L with
    | nil => exact absurd rfl hL
    | cons x L =>
      obtain ⟨rfl, h0, c, hc, s⟩ := s
      unfold cl at hc
      obtain ⟨e, he, rfl⟩ := Option.map_eq_some_iff.mp hc
      unfold chainFind
      have hd : dat d a = .ok e := by
        unfold dat rd
        rw [if_neg h0, he]
      rw [hd]
      simp only [bind, Except.bind]
      by_cases c1 : e.key = key
      · rw [if_pos c1]
        exact Or.inl ⟨[], a, L, rfl, ⟨e, he, c1⟩, fun y hy => by simp at hy, rfl⟩
      · rw [if_neg c1]
        have nk : ¬ KeyAt d a key := by
          rintro ⟨e', he', hk⟩
          rw [he] at he'
          cases he'
          exact c1 hk
        cases L with
        | nil =>
          have hz : e.coll = 0 := s
          rw [if_pos hz]
          refine Or.inr ⟨?_, rfl⟩
          intro y hy
          simp only [List.mem_singleton] at hy
          subst hy; exact nk
        | cons y L =>
          have hz : e.coll ≠ 0 := by
            obtain ⟨e1, h1, _⟩ := s
            rw [e1]; exact h1
          rw [if_neg hz]
          rcases ih e.coll (y :: L) s (by simp) (by simpa using hn) a with ⟨A, x, B, eL, hk, hA, e'⟩ | ⟨hA, e'⟩
          · refine Or.inl ⟨a :: A, x, B, by rw [eL]; rfl, hk, ?_, ?_⟩
            · intro z hz
              rcases List.mem_cons.mp hz with rfl | hz
              · exact nk
              · exact hA z hz
            · rw [e']
              cases A with
              | nil => rfl
              | cons z zs =>
                rw [List.getLast?_cons_cons, List.getLast?_eq_some_getLast (List.cons_ne_nil z zs)]
                rfl
          · refine Or.inr ⟨?_, e'⟩
            intro z hz
            rcases List.mem_cons.mp hz with rfl | hz
            · exact nk
            · exact hA z hz

/-- The positions of the entries with hash `h`. -/
def PosOf (d : List (DEnt K V)) (h x : Nat) : Prop := x ≠ 0 ∧ ∃ e, d[x - 1]? = some e ∧ e.hash = h

/-- The buckets: every hash has its chain, headed by its slot in the index; `skip` is a position left out (0: none). -/
structure Linked (idx : List IEnt) (d : List (DEnt K V)) (skip : Nat) (ch : Nat → List Nat) : Prop where
  nodup : ∀ h, (ch h).Nodup
  mem : ∀ h x, x ∈ ch h ↔ x ≠ skip ∧ PosOf d h x
  head : ∀ p < idx.length, Occ idx p → Seg d (at' idx p).pos (ch (at' idx p).hash) 0
  slot : ∀ h, ch h ≠ [] → ∃ p < idx.length, Occ idx p ∧ (at' idx p).hash = h

omit [DecidableEq K] in
theorem Linked.perm {idx idx' : List IEnt} {d : List (DEnt K V)} {skip : Nat} {ch : Nat → List Nat}
    (l : Linked idx d skip ch) (h : ∀ e : IEnt, e.pos ≠ 0 → (e ∈ idx' ↔ e ∈ idx)) : Linked idx' d skip ch := by
  refine ⟨l.nodup, l.mem, ?_, ?_⟩
  · intro p hp op
    obtain ⟨q, hq, e⟩ := mem_at ((h _ op).mp (at_mem hp))
    rw [← e]
    exact l.head q hq (by unfold Occ; rw [e]; exact op)
  · intro h' hc
    obtain ⟨p, hp, op, e⟩ := l.slot h' hc
    obtain ⟨q, hq, e'⟩ := mem_at ((h _ op).mpr (at_mem hp))
    exact ⟨q, hq, by unfold Occ; rw [e']; exact op, by rw [e']; exact e⟩

omit [DecidableEq K] in
theorem PosOf.le {d : List (DEnt K V)} {h x : Nat} (p : PosOf d h x) : 1 ≤ x ∧ x ≤ d.length := by
  obtain ⟨h0, e, he, _⟩ := p
  have := (List.getElem?_eq_some_iff.mp he).1
  omega

omit [DecidableEq K] in
theorem Linked.length_le {idx : List IEnt} {d : List (DEnt K V)} {skip : Nat} {ch : Nat → List Nat}
    (l : Linked idx d skip ch) (h : Nat) : (ch h).length ≤ d.length := by
  have sub : ch h ⊆ List.range' 1 d.length := by
    intro x hx
    have := ((l.mem h x).mp hx).2.le
    rw [List.mem_range'_1]
    omega
  have := (List.subperm_of_subset (l.nodup h) sub).length_le
  simpa using this

omit [DecidableEq K] in
theorem Linked.ne_nil {idx : List IEnt} {d : List (DEnt K V)} {skip : Nat} {ch : Nat → List Nat}
    (l : Linked idx d skip ch) {p : Nat} (hp : p < idx.length) (op : Occ idx p) : ch (at' idx p).hash ≠ [] := by
  intro z
  have := l.head p hp op
  rw [z] at this
  exact op this

/-- The state of a healthy map. `hf` is the hash of a key. -/
structure WF (hf : K → Nat) (m : Map K V) : Prop where
  pw : Pow m.index.length
  rh : RH m.index
  uq : Uniq m.index
  keys : (m.data.map DEnt.key).Nodup
  hashes : ∀ e ∈ m.data, e.hash = hf e.key
  linked : ∃ ch, Linked m.index m.data 0 ch

/-- All but the Robin-Hood order of the index: what even a bad growth keeps. -/
structure Weak (hf : K → Nat) (m : Map K V) : Prop where
  pw : Pow m.index.length
  uq : Uniq m.index
  keys : (m.data.map DEnt.key).Nodup
  hashes : ∀ e ∈ m.data, e.hash = hf e.key
  linked : ∃ ch, Linked m.index m.data 0 ch

omit [DecidableEq K] in
theorem WF.weak {hf : K → Nat} {m : Map K V} (w : WF hf m) : Weak hf m := ⟨w.pw, w.uq, w.keys, w.hashes, w.linked⟩

omit [DecidableEq K] in
theorem Weak.wf {hf : K → Nat} {m : Map K V} (w : Weak hf m) (rh : RH m.index) : WF hf m :=
  ⟨w.pw, rh, w.uq, w.keys, w.hashes, w.linked⟩

/-- `chainFind` on the bucket of a hash. -/
theorem Linked.find {idx : List IEnt} {d : List (DEnt K V)} {ch : Nat → List Nat} (l : Linked idx d 0 ch) (key : K)
    {p : Nat} (hp : p < idx.length) (op : Occ idx p) :
    (∃ A x B, ch (at' idx p).hash = A ++ x :: B ∧ KeyAt d x key ∧ (∀ y ∈ A, ¬ KeyAt d y key) ∧
      chainFind d key d.length (at' idx p).pos 0 = .ok (some (x, A.getLast?.getD 0))) ∨
    ((∀ y ∈ ch (at' idx p).hash, ¬ KeyAt d y key) ∧ chainFind d key d.length (at' idx p).pos 0 = .ok none) :=
  chainFind_ok d key d.length _ _ (l.head p hp op) (l.ne_nil hp op) (l.length_le _) 0

/-- `route` never faults on a map whose buckets are linked. -/
theorem Weak.route_ok {hf : K → Nat} {m : Map K V} (w : Weak hf m) (key : K) (h : Nat) :
    ∃ r, route m key h = .ok r ∧ RouteOk m key h r := by
  obtain ⟨ch, l⟩ := w.linked
  apply Verif.Hash.route_ok m key h (pow_maxProbes_le w.pw)
  intro p hp op _
  rcases l.find key hp op with ⟨A, x, B, _, _, _, e⟩ | ⟨_, e⟩
  · exact ⟨_, e⟩
  · exact ⟨_, e⟩

/-- A key that is in the map is found, at its position, with its predecessor in the bucket. -/
theorem WF.route_found {hf : K → Nat} {m : Map K V} (w : WF hf m) {ch : Nat → List Nat}
    (l : Linked m.index m.data 0 ch) {x : Nat} {e : DEnt K V} (hx : x ≠ 0) (he : m.data[x - 1]? = some e) :
    ∃ i A B, i < m.index.length ∧ Occ m.index i ∧ (at' m.index i).hash = e.hash ∧ ch e.hash = A ++ x :: B ∧
      route m e.key e.hash = .ok (.found i x (A.getLast?.getD 0)) := by
  have hmem : x ∈ ch e.hash := (l.mem _ _).mpr ⟨hx, hx, e, he, rfl⟩
  obtain ⟨p, hp, op, eh⟩ := l.slot e.hash (List.ne_nil_of_mem hmem)
  obtain ⟨J', hJ', es, occ'⟩ := w.rh.hit hp op
  rw [eh] at es occ'
  have uq := (uniq_iff _).mp w.uq
  have hL : 0 < m.index.length := by omega
  obtain ⟨r, er, rk⟩ := w.weak.route_ok e.key e.hash
  have keyEq : ∀ y, KeyAt m.data y e.key → y ≠ 0 → y = x := by
    rintro y ⟨e', he', hk⟩ hy
    have h1 := List.getElem?_eq_some_iff.mp he
    have h2 := List.getElem?_eq_some_iff.mp he'
    have := (List.nodup_iff_injective_getElem.mp w.keys)
      (a₁ := ⟨x - 1, by simpa using h1.1⟩) (a₂ := ⟨y - 1, by simpa using h2.1⟩)
      (by simp only [List.getElem_map, h1.2, h2.2, hk])
    have := congrArg Fin.val this
    simp only at this
    omega
  cases rk with
  | found J p' c hJ occ eq chain =>
    have ep := uq _ (Nat.mod_lt _ hL) p hp occ op (by rw [eq, eh])
    rw [ep] at er chain occ eq
    rcases l.find e.key hp op with ⟨A, y, B, eL, hk, _, e'⟩ | ⟨_, e'⟩
    · rw [e'] at chain
      have hy : y ≠ 0 := ((l.mem _ _).mp (by rw [eL]; simp : y ∈ ch (at' m.index p).hash)).1
      have := keyEq y hk hy
      subst this
      injection chain with chain
      injection chain with chain
      injection chain with c1 c2
      refine ⟨p, A, B, hp, op, eh, by rw [← eh, eL], ?_⟩
      rw [er, c2, c1]
    · rw [e'] at chain; cases chain
  | same J hJ occ eq chain =>
    exfalso
    have ep := uq _ (Nat.mod_lt _ hL) p hp occ op (by rw [eq, eh])
    rw [ep] at chain
    rcases l.find e.key hp op with ⟨A, y, B, eL, hk, _, e'⟩ | ⟨hn, e'⟩
    · rw [e'] at chain; cases chain
    · exact hn x (by rw [eh]; exact hmem) ⟨e, he, rfl⟩
  | free J F hJ hF nocc busy near fair =>
    exfalso
    by_cases c : J ≤ J'
    · exact nocc (occ' J c)
    · exact (busy J' (by omega)).2 (by rw [es]; exact eh)
  | unavail busy =>
    exfalso
    exact (busy J' hJ').2 (by rw [es]; exact eh)

/-- A position that `route` finds holds the key. -/
theorem Weak.found_key {hf : K → Nat} {m : Map K V} (w : Weak hf m) {key : K} {h i x c : Nat}
    (e : route m key h = .ok (.found i x c)) : x ≠ 0 ∧ KeyAt m.data x key := by
  obtain ⟨ch, l⟩ := w.linked
  obtain ⟨r, er, rk⟩ := w.route_ok key h
  rw [e] at er
  cases er
  cases rk with
  | found J p c hJ occ eq chain =>
    have hL : 0 < m.index.length := by have := pow_maxProbes_le w.pw; omega
    rcases l.find key (Nat.mod_lt _ hL) occ with ⟨A, y, B, eL, hk, _, e'⟩ | ⟨_, e'⟩
    · rw [e'] at chain
      injection chain with chain
      injection chain with chain
      injection chain with c1 c2
      rw [← c1]
      exact ⟨((l.mem _ _).mp (by rw [eL]; simp : y ∈ _)).1, hk⟩
    · rw [e'] at chain; cases chain

end Verif.Hash

import Verif.KidsStep
import Mathlib.Data.List.Perm.Subperm
/-! # An event loop with children, in calm runs -/
namespace Verif.Kids
open Verif.Ev (Owner Ep Reg EAGAIN)

section
variable {dbg : Bool} {lp : Nat} {s s' : St} {v v' : View} {recs recs' : Nat → Option Rec}

theorem Base.before {own : List Nat} (h : own.Nodup) : ∃ v, Base (before own) v [] ∧ (∀ p, v.kid p = false) ∧ ∀ n, v.pipe n = none := by
  have key : ∀ l : List Nat, l.Nodup → ∃ v, Reads (l.map Obs.userOpen) v ∧ (∀ p, v.kid p = false) ∧ (∀ n, v.pipe n = none) ∧
      ∀ n, v.owner n = if n ∈ l then .program else .free := by
    intro l
    induction l using List.reverseRecOn with
    | nil => intro _; exact ⟨_, .nil, fun _ => rfl, fun _ => rfl, fun _ => rfl⟩
    | append_singleton l a ih =>
      intro hn
      rw [List.nodup_append] at hn
      obtain ⟨v, h1, h2, h3, h4⟩ := ih hn.1
      have ha : a ∉ l := fun hm => hn.2.2 a hm a (by simp) rfl
      rw [List.map_append]
      refine ⟨v.own a .program, h1.snoc (.userOpen v a (by rw [h4, if_neg ha])), h2, h3, fun n => ?_⟩
      show (if n = a then _ else _) = _
      by_cases c : n = a
      · simp [c]
      · rw [if_neg c, h4]; simp [c]
  obtain ⟨v, h1, h2, h3, h4⟩ := key own h
  refine ⟨v, ?_, h2, h3⟩
  exact {
    reads := h1
    opened := fun n => by rw [h4]; show n ∈ own ↔ _; by_cases c : n ∈ own <;> simp [c]
    mine := fun n => by rw [h4]; show n ∈ own ↔ _; by_cases c : n ∈ own <;> simp [c]
    loop := fun n => by rw [h4]; by_cases c : n ∈ own <;> simp [c]
    onodup := h
    mnodup := h
    lnodup := List.nodup_nil
    big := fun n hn => by cases hn }

theorem Inv.start {own : List Nat} (h : own.Nodup) {fd : Nat} (hf : freshFd (before own) fd) (as : List Act) :
    ∃ s v recs, start dbg own fd as = .ok s ∧ Inv dbg fd s v recs none ∧ s.pending = [] ∧ s.ended = false := by
  obtain ⟨v, b, k, p⟩ := Base.before h
  have b1 := b.create hf
  have hfd : fd ≠ 0 := by have := hf.1; omega
  have e : ((Kids.before own).create fd).mustAdd fd = { (Kids.before own).create fd with mustClose := [fd] } := by
    unfold St.mustAdd
    rw [if_pos hfd]
    rfl
  have i : Inv dbg fd (((Kids.before own).create fd).mustAdd fd) (v.own fd .loop) (fun _ => none) none := by
    rw [e]
    refine ⟨b1.other rfl rfl rfl, ?_⟩
    exact {
      lpmem := hf.1
      must := fun n => by
        show n ∈ [fd] ↔ _
        constructor
        · intro hh; exact Or.inl (by simpa using hh)
        · rintro (hh | ⟨_, t, r, k, hh, _⟩)
          · simp [hh]
          · cases hh
      lpnot := fun t r k hh => by cases hh
      inj := fun t r k t' r' k' hh => by cases hh
      pids := fun t r t' r' hh => by cases hh
      pidok := fun t r hh => by cases hh
      kids := fun p => ⟨fun hh => (by cases hh), fun ⟨t, r, hh, _⟩ => (by cases hh)⟩
      kill := fun p => ⟨fun hh => (by cases hh), fun ⟨t, r, hh, _⟩ => (by cases hh)⟩
      knodup := List.nodup_nil
      mnodup := List.nodup_nil
      vkid := fun q => ⟨fun hh => (by rw [show (v.own fd .loop).kid q = v.kid q from rfl, k] at hh; cases hh), fun ⟨t, r, hh, _⟩ => (by cases hh)⟩
      vpipe := fun n q i => ⟨fun hh => (by rw [show (v.own fd .loop).pipe n = v.pipe n from rfl, p] at hh; cases hh),
        fun ⟨_, _, t, r, hh, _⟩ => (by cases hh)⟩
      pool := ⟨_, .start, rfl, by decide, fun slot m hm => (by cases hm), fun t r hh => (by cases hh)⟩
      reg := fun n g hh => (by cases hh)
      pend := fun q hh => (by cases hh)
      calm := List.Pairwise.nil }
  obtain ⟨s, v', recs', e1, i1, f1⟩ := i.acts (by intro u w hh; cases hh) as
  refine ⟨s, v', recs', e1, i1, f1.pending.trans ?_, f1.ended.trans ?_⟩
  · rw [e]; rfl
  · rw [e]; rfl

theorem closeAll_ok {l : List Nat} (b : Base s v l) : ∃ s' v', closeAll s l = .ok s' ∧ Base s' v' [] ∧ v'.kid = v.kid ∧
    s'.mustKill = s.mustKill ∧ s'.kids = s.kids ∧ s'.trace = s.trace ++ l.map Obs.close := by
  induction l generalizing s v with
  | nil => exact ⟨s, v, rfl, b, rfl, rfl, rfl, by simp⟩
  | cons a l ih =>
    obtain ⟨s1, e1, b1, q⟩ := b.close (List.mem_cons_self ..)
    rw [List.erase_cons_head] at b1
    obtain ⟨s2, v2, e2, b2, k2, m2, d2, t2⟩ := ih b1
    refine ⟨s2, v2, ?_, b2, k2, ?_, ?_, ?_⟩
    · unfold closeAll; rw [e1]; exact e2
    · rw [m2, q]
    · rw [d2, q]
    · rw [t2, q]; simp

theorem Reads.terms {t : List Obs} (h : Reads t v) (ps : List Nat) (hk : ∀ p ∈ ps, v.kid p = true) : Reads (t ++ ps.map Obs.term) v := by
  induction ps generalizing t with
  | nil => simpa using h
  | cons p ps ih =>
    have := ih (h.snoc (.term v p (hk p (List.mem_cons_self ..)))) (fun q hq => hk q (List.mem_cons_of_mem _ hq))
    simpa using this

theorem Inv.finish (h : Inv dbg lp s v recs none) : ∃ s' v', finish s = .ok s' ∧ Reads s'.trace v' ∧ v'.kid = v.kid ∧
    (∀ n, v'.owner n ≠ .loop) ∧ (∀ n, n ∈ s'.opened ↔ v'.owner n ≠ .free) ∧ (∀ n, n ∈ s'.opened ↔ n ∈ s'.mine) ∧ s'.ended = true ∧ s'.kids = s.kids ∧
    s'.trace = s.trace ++ s.mustClose.map Obs.close ++ s.mustKill.map Obs.term := by
  obtain ⟨s1, v1, e1, b1, k1, m1, d1, t1⟩ := closeAll_ok h.base
  refine ⟨{ s1 with ended := true, pending := [], mustClose := [], trace := s1.trace ++ s1.mustKill.map .term }, v1,
    by unfold Kids.finish; rw [e1]; rfl, ?_, k1, ?_, b1.opened, ?_, rfl, d1, ?_⟩
  · refine b1.reads.terms _ ?_
    intro p hp
    rw [m1] at hp
    rw [k1]
    exact (h.kin.vkid p).2 ((h.kin.kill p).1 hp)
  · intro n hn
    have := (b1.loop n).2 hn
    cases this
  · intro n
    show n ∈ s1.opened ↔ n ∈ s1.mine
    rw [b1.opened, b1.mine]
    constructor
    · intro h1
      cases e : v1.owner n with
      | free => exact absurd e h1
      | program => rfl
      | loop => have := (b1.loop n).2 e; cases this
    · intro h1; rw [h1]; intro hh; cases hh
  · show s1.trace ++ s1.mustKill.map Obs.term = _
    rw [t1, m1]

theorem Inv.deliver (h : Inv dbg lp s v recs none) (evs : List (Nat × Ep)) (herr : ∀ e ∈ evs, e.2.err = false)
    (hc : (deliver s evs).pending.Pairwise fun p q => ¬ About p q) : Inv dbg lp (deliver s evs) v recs none := by
  refine ⟨h.base.other rfl rfl rfl, ?_⟩
  exact { h.kin with
    calm := hc
    reg := fun n g hg => by
      have hg : (s.reg n).map _ = some g := hg
      cases e : s.reg n with
      | none => rw [e] at hg; cases hg
      | some g0 =>
        rw [e] at hg
        injection hg with hg
        have hud : g.ud = g0.ud := by rw [← hg]; dsimp only; split <;> rfl
        rw [hud]
        exact h.kin.reg n g0 e
    pend := fun p hp => by
      have hp : p ∈ evs.filterMap fun e => (s.reg e.1).map fun r => (r.ud, e.2) := hp
      rw [List.mem_filterMap] at hp
      obtain ⟨e, he, hh⟩ := hp
      cases hr : s.reg e.1 with
      | none => rw [hr] at hh; cases hh
      | some g =>
        rw [hr] at hh
        injection hh with hh
        subst hh
        obtain ⟨_, t, r, k, a, b, _, d⟩ := h.kin.reg _ _ hr
        exact ⟨herr e he, t, r, k, a, b, d⟩ }

/-- The invariant in calm runs. -/
theorem CalmReach.inv (h : CalmReach dbg s) : (s.ended = false ∧ ∃ lp v recs, Inv dbg lp s v recs none) ∨
    (s.ended = true ∧ ∃ v, Reads s.trace v ∧ (∀ n, v.owner n ≠ .loop) ∧ (∀ n, n ∈ s.opened ↔ v.owner n ≠ .free) ∧
      (∀ n, n ∈ s.opened ↔ n ∈ s.mine) ∧ ∀ p, v.kid p = true ↔ p ∈ s.kids) := by
  induction h with
  | start own fd as s hn hf e =>
    obtain ⟨s1, v, recs, e1, i, _, en⟩ := Inv.start (dbg := dbg) hn hf as
    rw [e] at e1
    injection e1 with e1
    subst e1
    exact Or.inl ⟨en, fd, v, recs, i⟩
  | wait s evs hr he hp hn ha herr hc ih =>
    rcases ih with ⟨_, lp, v, recs, i⟩ | ⟨he', _⟩
    · exact Or.inl ⟨he, lp, v, recs, i.deliver evs herr hc⟩
    · rw [he] at he'; cases he'
  | handle s c s' hr he hc e ih =>
    rcases ih with ⟨_, lp, v, recs, i⟩ | ⟨he', _⟩
    · obtain ⟨s1, v1, recs1, e1, i1, _, en, _⟩ := i.handle c hc
      rw [e] at e1
      injection e1 with e1
      subst e1
      exact Or.inl ⟨en.trans he, lp, v1, recs1, i1⟩
    · rw [he] at he'; cases he'
  | stop s s' hr he e ih =>
    rcases ih with ⟨_, lp, v, recs, i⟩ | ⟨he', _⟩
    · obtain ⟨s1, v1, e1, q1, q2, q3, q4, q5, q6, q7, _⟩ := i.finish
      rw [e] at e1
      injection e1 with e1
      subst e1
      refine Or.inr ⟨q6, v1, q1, q3, q4, q5, fun p => ?_⟩
      rw [q2, q7, i.kin.vkid p, i.kin.kids p]
    · rw [he] at he'; cases he'

end

variable {dbg : Bool}

/-- **C90** In calm runs the rules are kept: every event, read and signal is for a child that is there, reads are of its own open
pipes, each child is announced closed once and after its pipes, and the loop closes only descriptors of its own. The children
that are there are those not yet waited for. Missing: the runs that are not calm, in which this is false (`KidsBad`). -/
theorem calm_trace_partial {s : St} (h : CalmReach dbg s) :
    ∃ v, Reads s.trace v ∧ (∀ p, v.kid p = true ↔ p ∈ s.kids) ∧ ∀ n, n ∈ s.opened ↔ v.owner n ≠ .free := by
  rcases h.inv with ⟨_, lp, v, recs, i⟩ | ⟨_, v, q1, _, q3, _, q5⟩
  · exact ⟨v, i.base.reads, fun p => by rw [i.kin.vkid p, i.kin.kids p], i.base.opened⟩
  · exact ⟨v, q1, q5, q3⟩

/-- **C90** In calm runs no assertion fails: not when the loop starts, nor in any event, nor when it stops. Missing: the runs that
are not calm (`KidsBad`). -/
theorem calm_no_fault_partial :
    (∀ own fd as, own.Nodup → freshFd (before own) fd → ∃ s, start dbg own fd as = .ok s) ∧
    ∀ s, CalmReach dbg s → s.ended = false →
      (∀ c : Choice, (∀ b e n, Call.read b e n ∈ c.calls → e = 0 ∨ e = EAGAIN) → ∃ s', handle dbg s c = .ok s') ∧
      ∃ s', finish s = .ok s' := by
  refine ⟨fun own fd as hn hf => ?_, fun s h he => ?_⟩
  · obtain ⟨s, _, _, e, _⟩ := Inv.start (dbg := dbg) hn hf as
    exact ⟨s, e⟩
  · rcases h.inv with ⟨_, lp, v, recs, i⟩ | ⟨he', _⟩
    · refine ⟨fun c hc => ?_, ?_⟩
      · obtain ⟨s', _, _, e, _⟩ := i.handle c hc
        exact ⟨s', e⟩
      · obtain ⟨s', _, e, _⟩ := i.finish
        exact ⟨s', e⟩
    · rw [he] at he'; cases he'

/-- **C90** When the loop returns, only the program's own descriptors are open, and the last it did was to send `SIGTERM` to each
child not yet waited for, once. Missing: runs that are not calm. -/
theorem calm_stop_partial {s s' : St} (h : CalmReach dbg s) (he : s.ended = false) (e : finish s = .ok s') :
    (∀ n, n ∈ s'.opened ↔ n ∈ s'.mine) ∧
    ∃ cs ps : List Nat, s'.trace = s.trace ++ cs.map Obs.close ++ ps.map Obs.term ∧ ps.Nodup ∧ ∀ p, p ∈ ps ↔ p ∈ s.kids := by
  rcases h.inv with ⟨_, lp, v, recs, i⟩ | ⟨he', _⟩
  · obtain ⟨s1, v1, e1, q1, q2, q3, q4, q5, q6, q7, q8⟩ := i.finish
    rw [e] at e1
    injection e1 with e1
    subst e1
    exact ⟨q5, _, _, q8, i.kin.mnodup, fun p => by rw [i.kin.kill p, i.kin.kids p]⟩
  · rw [he] at he'; cases he'

/-- **C90** While a calm run goes on, the loop holds at most one descriptor of its own and four for each child not yet waited for: none
is left behind by children that ended. -/
theorem calm_no_leak_partial {s : St} (h : CalmReach dbg s) (he : s.ended = false) :
    s.opened.length ≤ s.mine.length + 1 + 4 * s.kids.length := by
  rcases h.inv with ⟨_, lp, v, recs, i⟩ | ⟨he', _⟩
  · have hsub : s.opened ⊆ s.mine ++ s.mustClose := by
      intro n hn
      rw [i.base.opened] at hn
      rw [List.mem_append, i.base.mine, i.base.loop]
      cases e : v.owner n with
      | free => exact absurd e hn
      | program => exact Or.inl rfl
      | loop => exact Or.inr rfl
    have h1 := (i.base.onodup.subperm hsub).length_le
    rw [List.length_append] at h1
    -- the descriptors of children
    have hx : ∀ n ∈ s.mustClose.erase lp, ∃ t r k, recs t = some r ∧ k < 4 ∧ r.fd k = n ∧ n ≠ 0 := by
      intro n hn
      rw [i.base.lnodup.mem_erase_iff, i.kin.must n] at hn
      rcases hn with ⟨hne, hh | ⟨h0, t, r, k, a, b, c⟩⟩
      · exact absurd hh hne
      · exact ⟨t, r, k, a, b, c, h0⟩
    classical
    let code : Nat → Nat := fun n =>
      if hh : ∃ t r k, recs t = some r ∧ k < 4 ∧ r.fd k = n ∧ n ≠ 0 then
        hh.choose_spec.choose.pid * 4 + hh.choose_spec.choose_spec.choose else 0
    have hcode : ∀ n ∈ s.mustClose.erase lp, ∃ t r k, recs t = some r ∧ k < 4 ∧ r.fd k = n ∧ n ≠ 0 ∧ code n = r.pid * 4 + k := by
      intro n hn
      have hh := hx n hn
      refine ⟨hh.choose, hh.choose_spec.choose, hh.choose_spec.choose_spec.choose, ?_⟩
      obtain ⟨a, b, c, d⟩ := hh.choose_spec.choose_spec.choose_spec
      exact ⟨a, b, c, d, by show dite _ _ _ = _; rw [dif_pos hh]⟩
    have hnd : ((s.mustClose.erase lp).map code).Nodup := by
      refine List.Nodup.map_on ?_ (i.base.lnodup.erase _)
      intro a ha b hb hab
      obtain ⟨t, r, k, x1, x2, x3, x4, x5⟩ := hcode a ha
      obtain ⟨t', r', k', y1, y2, y3, y4, y5⟩ := hcode b hb
      rw [x5, y5] at hab
      have := i.kin.pids t r t' r' x1 y1 (by omega)
      subst this
      rw [x1] at y1; injection y1 with y1; subst y1
      have : k = k' := by omega
      subst this
      exact x3.symm.trans y3
    have hsub2 : (s.mustClose.erase lp).map code ⊆ s.kids.flatMap fun p => [p * 4, p * 4 + 1, p * 4 + 2, p * 4 + 3] := by
      intro x hx
      obtain ⟨n, hn, rfl⟩ := List.mem_map.1 hx
      obtain ⟨t, r, k, x1, x2, x3, x4, x5⟩ := hcode n hn
      rw [List.mem_flatMap]
      refine ⟨r.pid, (i.kin.kids _).2 ⟨t, r, x1, rfl⟩, ?_⟩
      rw [x5]
      have : k = 0 ∨ k = 1 ∨ k = 2 ∨ k = 3 := by omega
      rcases this with rfl | rfl | rfl | rfl <;> simp
    have h2 := (hnd.subperm hsub2).length_le
    have h3 : ∀ ks : List Nat, (ks.flatMap fun p => [p * 4, p * 4 + 1, p * 4 + 2, p * 4 + 3]).length = 4 * ks.length := by
      intro ks
      induction ks with
      | nil => rfl
      | cons a ks ih => rw [List.flatMap_cons, List.length_append, ih]; simp; omega
    rw [h3, List.length_map, List.length_erase_of_mem ((i.kin.must lp).2 (Or.inl rfl))] at h2
    omega
  · rw [he] at he'; cases he'

end Verif.Kids

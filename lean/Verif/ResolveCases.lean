import Verif.ResolveProps
/-!
# When the keys of the cache do not clash, and what happens when they do: C79
-/
namespace Verif.Resolve
open Verif

/-! ## A condition that is easy to check -/

theorem slash_split {a b x y : Str} (ha : a.getLast? = some (ch '/')) (hb : b.getLast? = some (ch '/')) (hx : ch '/' ∉ x) (hy : ch '/' ∉ y)
    (h : a ++ x = b ++ y) : a = b ∧ x = y := by
  rw [List.append_eq_append_iff] at h
  rcases h with ⟨t, rfl, rfl⟩ | ⟨t, rfl, rfl⟩
  · cases t with
    | nil => simp
    | cons c t =>
      have : (c :: t).getLast? = some (ch '/') := by
        rw [List.getLast?_append] at hb
        cases e : (c :: t).getLast? with
        | none => simp at e
        | some z => rw [e] at hb; exact hb
      exact absurd (List.mem_append_left y (List.mem_of_getLast? this)) hx
  · cases t with
    | nil => simp
    | cons c t =>
      have : (c :: t).getLast? = some (ch '/') := by
        rw [List.getLast?_append] at ha
        cases e : (c :: t).getLast? with
        | none => simp at e
        | some z => rw [e] at ha; exact ha
      exact absurd (List.mem_append_left x (List.mem_of_getLast? this)) hy

theorem parents_slash {d p : Str} (h : p ∈ parents d) : p.getLast? = some (ch '/') := by
  induction d generalizing p with
  | nil => cases h
  | cons c t ih =>
    rw [parents, List.mem_append] at h
    rcases h with h | h
    · obtain ⟨q, hq, rfl⟩ := List.mem_map.1 h
      have := ih hq
      cases q with
      | nil => cases this
      | cons => rw [List.getLast?_cons_cons]; exact this
    · split at h
      · rename_i hc
        rw [List.mem_singleton.1 h, hc.1]; rfl
      · cases h

/-- A request that names a module, or an item of one, without slashes; the importing directory ends with one. -/
structure Plain (r : Req) (base : Str) (item : Option Str) : Prop where
  dir : r.dir.getLast? = some (ch '/')
  dirv : vt ∉ r.dir
  raw : r.raw = base ++ (match item with | some i => ch '\t' :: i | none => [])
  files : r.files = fileNames base item
  nofu : ¬ str ".fu" <:+ r.raw
  base_ne : base ≠ []
  base_ok : ∀ c ∈ base, c ≠ ch '/' ∧ c ≠ ch '\t' ∧ c ≠ vt
  item_ok : ∀ i, item = some i → i ≠ [] ∧ ∀ c ∈ i, c ≠ ch '/' ∧ c ≠ ch '\t' ∧ c ≠ vt

theorem Plain.ok {r : Req} {base : Str} {item : Option Str} (h : Plain r base item) : r.Ok := by
  obtain ⟨h1, h2, h3, h4, h5, h6, h7, h8⟩ := h
  refine ⟨?_, ?_, h2, ?_⟩
  · cases item with
    | none =>
      rw [List.append_nil] at h3
      rw [h4, h3]
      exact .module base h6 (h3 ▸ h5) (fun hm => (h7 _ hm).2.1 rfl)
    | some i =>
      rw [h4, h3]
      exact .item base i h6 (h8 i rfl).1 (h3 ▸ h5) (fun hm => (h7 _ hm).2.1 rfl) (fun hm => ((h8 i rfl).2 _ hm).2.1 rfl)
  · intro e; rw [e] at h1; cases h1
  · rw [h3, List.mem_append]
    rintro (hm | hm)
    · exact (h7 _ hm).2.2 rfl
    · cases item with
      | none => cases hm
      | some i =>
        rcases List.mem_cons.1 hm with e | hm
        · revert e; decide
        · exact ((h8 i rfl).2 _ hm).2.2 rfl

theorem Plain.mem {r : Req} {base : Str} {item : Option Str} (h : Plain r base item) {n : Str} (hn : n ∈ r.files) :
    n = base ++ str ".fu" ∨ ∃ x, ch '/' ∉ x ∧ n = base ++ str "/" ++ x := by
  have hfu : ch '/' ∉ str ".fu" := by decide
  have hl : ch '/' ∉ lastPart base := by
    have : ∀ s : Str, ch '/' ∉ s → lastPart s = s := by
      intro s hs
      cases s with
      | nil => rfl
      | cons c t =>
        have h1 : ¬ c = ch '/' := fun e => hs (by rw [e]; exact List.mem_cons_self)
        rw [lastPart, if_neg h1, if_neg (fun e => hs (List.mem_cons_of_mem _ e))]
    rw [this base (fun hm => (h.base_ok _ hm).1 rfl)]
    exact fun hm => (h.base_ok _ hm).1 rfl
  rw [h.files] at hn
  unfold fileNames at hn
  cases hi : item with
  | none =>
    rw [hi] at hn
    simp only [List.append_nil, List.mem_cons, List.not_mem_nil, or_false] at hn
    rcases hn with rfl | rfl
    · exact .inl rfl
    · exact .inr ⟨lastPart base ++ str ".fu", fun hm => (List.mem_append.1 hm).elim hl hfu, by simp⟩
  | some i =>
    rw [hi] at hn
    simp only [List.cons_append, List.nil_append, List.mem_cons, List.not_mem_nil, or_false] at hn
    rcases hn with rfl | rfl | rfl
    · exact .inl rfl
    · exact .inr ⟨lastPart base ++ str ".fu", fun hm => (List.mem_append.1 hm).elim hl hfu, by simp⟩
    · exact .inr ⟨i ++ str ".fu", fun hm => (List.mem_append.1 hm).elim (fun hm => ((h.item_ok i hi).2 _ hm).1 rfl) hfu, by simp⟩

/-- The directories that imports are made from, and those above them. -/
def Above (rs : List Req) (d : Str) : Prop := ∃ r ∈ rs, d = r.dir ∨ d ∈ parents r.dir

/-- C79.  Imports of modules by plain names, in any number and order: each stands for the file the rules say, if no directory from
which something is imported, and none above it, is called like an imported module. -/
theorem resolve_plain_partial (exist prep : Str → Bool) (fudir : Str) (rs : List Req) (hp : ∀ r ∈ rs, ∃ base item, Plain r base item)
    (hdirs : ∀ (d : Str) (r : Req) (base : Str) (item : Option Str), Above rs d → r ∈ rs → Plain r base item → ¬ Above rs (d ++ base ++ str "/")) :
    serve exist prep fudir (fun _ => none) rs = some (rs.map fun r => answer exist prep fudir r.dir r.raw r.files) := by
  have hsl : ∀ d, Above rs d → d.getLast? = some (ch '/') := by
    rintro d ⟨r, hr, h⟩
    obtain ⟨base, item, hpl⟩ := hp r hr
    rcases h with rfl | h
    · exact hpl.dir
    · exact parents_slash h
  refine resolve_correct_partial exist prep fudir rs (fun r hr => (hp r hr).elim fun _ h => h.elim fun _ h => h.ok) ?_
  rintro d n d' n' ⟨r, hr, hn, hd⟩ ⟨r', hr', hn', hd'⟩ e
  have had : Above rs d := ⟨r, hr, hd⟩
  have had' : Above rs d' := ⟨r', hr', hd'⟩
  obtain ⟨b, i, hpl⟩ := hp r hr
  obtain ⟨b', i', hpl'⟩ := hp r' hr'
  have hb : ch '/' ∉ b := fun hm => (hpl.base_ok _ hm).1 rfl
  have hb' : ch '/' ∉ b' := fun hm => (hpl'.base_ok _ hm).1 rfl
  have hfu : ch '/' ∉ str ".fu" := by decide
  have hbf : ch '/' ∉ b ++ str ".fu" := fun hm => (List.mem_append.1 hm).elim hb hfu
  have hbf' : ch '/' ∉ b' ++ str ".fu" := fun hm => (List.mem_append.1 hm).elim hb' hfu
  have hend : ∀ x : Str, (x ++ str "/").getLast? = some (ch '/') := fun x => by
    rw [List.getLast?_append]; rfl
  rcases hpl.mem hn with rfl | ⟨x, hx, rfl⟩
  · rcases hpl'.mem hn' with rfl | ⟨x', hx', rfl⟩
    · exact slash_split (hsl d had) (hsl d' had') hbf hbf' e
    · rw [← List.append_assoc d' (b' ++ str "/") x', ← List.append_assoc d' b' (str "/")] at e
      have := (slash_split (hsl d had) (hend (d' ++ b')) hbf hx' e).1
      exact absurd (this ▸ had) (hdirs d' r' b' i' had' hr' hpl')
  · rcases hpl'.mem hn' with rfl | ⟨x', hx', rfl⟩
    · rw [← List.append_assoc, ← List.append_assoc d] at e
      have := (slash_split (hend (d ++ b)) (hsl d' had') hx hbf' e).1
      exact absurd (this ▸ had') (hdirs d r b i had hr hpl)
    · rw [← List.append_assoc, ← List.append_assoc d, ← List.append_assoc d', ← List.append_assoc d'] at e
      obtain ⟨e1, rfl⟩ := slash_split (hend (d ++ b)) (hend (d' ++ b')) hx hx' e
      obtain ⟨e2, e3⟩ := slash_split (hsl d had) (hsl d' had') hb hb' (List.append_cancel_right e1)
      exact ⟨e2, by rw [e3]⟩

/-! ## The condition is met, and the answer is not trivial -/

/-- `/p/lib/b/b.fu` and `/p/a.fu` exist, a file in `/p/src/x/` imports `a`, then one in `/p/src/` imports the item `q` of `b`. -/
def exDisk (p : Str) : Bool := p = str "/fu/lib/b/b.fu" ∨ p = str "/p/a.fu"

def exReqs : List Req :=
  [⟨str "/p/src/x/", str "a", fileNames (str "a") none⟩, ⟨str "/p/src/", str "b\tq", fileNames (str "b") (some (str "q"))⟩]

example : serve exDisk (fun _ => false) (str "/fu/") (fun _ => none) exReqs = some [str "/p/a.fu", str "/fu/lib/b/b.fu"] := by decide +kernel

example : (exReqs.map fun r => answer exDisk (fun _ => false) (str "/fu/") r.dir r.raw r.files) = [str "/p/a.fu", str "/fu/lib/b/b.fu"] := by decide +kernel

theorem exPlain : ∀ r ∈ exReqs, ∃ base item, Plain r base item := by
  intro r hr
  simp only [exReqs, List.mem_cons, List.not_mem_nil, or_false] at hr
  rcases hr with rfl | rfl
  · exact ⟨str "a", none, by decide, by decide, rfl, rfl, by decide, by decide, by decide, by intro i h; cases h⟩
  · exact ⟨str "b", some (str "q"), by decide, by decide, rfl, rfl, by decide, by decide, by decide, by intro i h; cases h; decide⟩

/-- The directories of the example. -/
theorem exAbove {d : Str} (h : Above exReqs d) : d ∈ [str "/p/src/x/", str "/p/src/", str "/p/", str "/"] := by
  obtain ⟨r, hr, h⟩ := h
  simp only [exReqs, List.mem_cons, List.not_mem_nil, or_false] at hr
  rcases hr with rfl | rfl
  · rcases h with rfl | h
    · decide
    · have : ∀ x ∈ parents (str "/p/src/x/"), x ∈ [str "/p/src/x/", str "/p/src/", str "/p/", str "/"] := by decide
      exact this d h
  · rcases h with rfl | h
    · decide
    · have : ∀ x ∈ parents (str "/p/src/"), x ∈ [str "/p/src/x/", str "/p/src/", str "/p/", str "/"] := by decide
      exact this d h

example : serve exDisk (fun _ => false) (str "/fu/") (fun _ => none) exReqs =
    some (exReqs.map fun r => answer exDisk (fun _ => false) (str "/fu/") r.dir r.raw r.files) :=
  resolve_plain_partial _ _ _ _ exPlain (by
    intro d r base item hd hr hpl ha
    have h1 := exAbove hd
    have h2 := exAbove ha
    have hb : base = str "a" ∨ base = str "b" := by
      have hraw := hpl.raw
      simp only [exReqs, List.mem_cons, List.not_mem_nil, or_false] at hr
      rcases hr with rfl | rfl
      · left
        cases item with
        | none => exact (by simpa using hraw.symm)
        | some i =>
          have : ch '\t' ∈ str "a" := by
            show ch '\t' ∈ (Req.mk (str "/p/src/x/") (str "a") (fileNames (str "a") none)).raw
            rw [hraw]; simp
          exact absurd this (by decide)
      · right
        cases item with
        | none =>
          have : ch '\t' ∈ base := by
            have e : str "b\tq" = base := by simpa using hraw
            rw [← e]; decide
          exact absurd rfl (hpl.base_ok _ this).2.1
        | some i =>
          have e : str "b\tq" = base ++ ch '\t' :: i := hraw
          match base, hpl.base_ne, hpl.base_ok, e with
          | [c], _, _, e => rw [show str "b\tq" = str "b" ++ str "\tq" by decide] at e; exact (List.append_inj e rfl).1.symm
          | c :: c' :: t, _, hok, e =>
            have e2 : ch '\t' = c' := by
              have := congrArg (·[1]?) e
              have h3 : (str "b\tq")[1]? = some (ch '\t') := by decide
              simpa [h3] using this
            exact absurd e2.symm (hok c' (by simp)).2.1
    have key : ∀ x ∈ [str "/p/src/x/", str "/p/src/", str "/p/", str "/"], ∀ b ∈ [str "a", str "b"],
        x ++ b ++ str "/" ∉ [str "/p/src/x/", str "/p/src/", str "/p/", str "/"] := by decide
    exact key d h1 base (by rcases hb with rfl | rfl <;> decide) h2)

/-! ## Findings: the cache is keyed by `from ~ name` -/

/-- A file in `/x/n/` imports `n`, which the library has as `n/n.fu`.  Looking for `n.fu` records a miss for `/x/n/n.fu`, and that
cuts off the lookup of `n/n.fu` in `/x/`: the library is never asked. -/
theorem resolve_hidden_by_miss :
    let exist := fun p => p = str "/fu/lib/n/n.fu"
    answer exist (fun _ => false) (str "/fu/") (str "/x/n/") (str "n") (fileNames (str "n") none) = str "/fu/lib/n/n.fu" ∧
    (resolveFile exist (fun _ => false) (str "/fu/") (fun _ => none) (str "/x/n/" ++ vt :: str "n")).map (·.2)
      = some (str "/x/n/" ++ vt :: str "n") := by
  decide +kernel

/-- From another directory the same import is found. -/
theorem resolve_elsewhere_found :
    let exist := fun p => p = str "/fu/lib/n/n.fu"
    (resolveFile exist (fun _ => false) (str "/fu/") (fun _ => none) (str "/x/m/" ++ vt :: str "n")).map (·.2)
      = some (str "/fu/lib/n/n.fu") := by
  decide +kernel

/-- The answer to an import depends on what was imported before: `c` from `/a/b/` is in `/c.fu`, but not if `b/c` was looked for
in `/a/` first. -/
theorem resolve_order_dependent :
    let exist := fun p => p = str "/c.fu"
    let before : Req := ⟨str "/a/", str "b/c", fileNames (str "b/c") none⟩
    let request : Req := ⟨str "/a/b/", str "c", fileNames (str "c") none⟩
    (serve exist (fun _ => false) (str "/fu/") (fun _ => none) [request]) = some [str "/c.fu"] ∧
    (serve exist (fun _ => false) (str "/fu/") (fun _ => none) [before, request])
      = some [str "/a/" ++ vt :: str "b/c", str "/a/b/" ++ vt :: str "c"] := by
  decide +kernel

end Verif.Resolve

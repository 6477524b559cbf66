import Verif.EmbedProps
/-! # Fonts written as source code: the theorems -/
namespace Verif.Embed
open Verif.Bdf (Box Glyph)

theorem Hull.unique {gs : List Glyph} {D D' : Box} (h : Hull gs D) (h' : Hull gs D') : D = D' := by
  obtain ⟨a, ha, ea⟩ := h.ex0
  obtain ⟨b, hb, eb⟩ := h.ex1
  obtain ⟨c, hc, ec⟩ := h.ey0
  obtain ⟨d, hd, ed⟩ := h.ey1
  obtain ⟨a', ha', ea'⟩ := h'.ex0
  obtain ⟨b', hb', eb'⟩ := h'.ex1
  obtain ⟨c', hc', ec'⟩ := h'.ey0
  obtain ⟨d', hd', ed'⟩ := h'.ey1
  have x0 : D.x_min = D'.x_min := BitVec.eq_of_toInt_eq (Int.le_antisymm (ea' ▸ h.x0 a' ha') (ea ▸ h'.x0 a ha))
  have x1 : D.x_max = D'.x_max := BitVec.eq_of_toInt_eq (Int.le_antisymm (eb ▸ h'.x1 b hb) (eb' ▸ h.x1 b' hb'))
  have y0 : D.y_min = D'.y_min := BitVec.eq_of_toInt_eq (Int.le_antisymm (ec' ▸ h.y0 c' hc') (ec ▸ h'.y0 c hc))
  have y1 : D.y_max = D'.y_max := BitVec.eq_of_toInt_eq (Int.le_antisymm (ed ▸ h'.y1 d hd) (ed' ▸ h.y1 d' hd'))
  cases D; cases D'; simp only at *
  rw [x0, x1, y0, y1]

/-- the table of a font that can be embedded: not empty, no more code points than there are, and it has the four characters
that are measured -/
structure Ready (T : List (BitVec 16)) : Prop where
  some : T ≠ []
  few : T.length ≤ 65536
  x : T.getD 120 0 ≠ 0
  p : T.getD 112 0 ≠ 0
  b : T.getD 98 0 ≠ 0
  H : T.getD 72 0 ≠ 0

theorem Ready.listed {T : List (BitVec 16)} {c : Nat} (h : T.getD c 0 ≠ 0) : c ∈ Embed.listed T := by
  rw [listed_mem]
  refine ⟨?_, .inl h⟩
  rcases Nat.lt_or_ge c T.length with h' | h'
  · exact h'
  · rw [List.getD_eq_getElem?_getD, List.getElem?_eq_none h'] at h; exact absurd rfl h

/-- What becomes of any font whose box is as large as the box around its glyphs: it is written and unpacked without fault, and
the code point that is number `i` of those listed (counting from 0, in order) is drawn as glyph number `i`, shifted so that the
common box begins at 0 and at the unpacked font's own lower edge. -/
theorem embed_ranks (T : List (BitVec 16)) (box D : Box) (bf : Bitmap) (r : Ready T) (hm : bf.mono = .zero) (ok : bf.Ok)
    (hD : Hull bf.glyphs D) (bw : box.width = D.width) (bh : box.height = D.height)
    (n : bf.glyphs.length = (listed T).length) :
    ∃ s f, emit box T bf = some s ∧ s.unpack = some f ∧ f.box.x_min = 0 ∧
      (∀ (i c : Nat) (g : Glyph), (listed T)[i]? = some c → bf.glyphs[i]? = some g → ∀ X Y, f.ink c X Y =
        lit (ink bf.texels g (X + D.x_min.toInt) (Y - f.box.y_min.toInt + D.y_min.toInt))) ∧
      (∀ c, c ∉ listed T → ∀ X Y, f.ink c X Y = f.ink 0 X Y) ∧
      ((∀ (i : Nat) (g : Glyph), ((listed T)[i]? = some 120 ∨ (listed T)[i]? = some 72) → bf.glyphs[i]? = some g → ∀ X Y, Y < 0 → ink bf.texels g X Y = 0) →
        (∃ (i : Nat) (g : Glyph) (X : Int), ((listed T)[i]? = some 120 ∨ (listed T)[i]? = some 72) ∧ bf.glyphs[i]? = some g ∧ ink bf.texels g X 0 ≠ 0) →
        f.box.y_min = D.y_min) := by
  have hne : bf.glyphs ≠ [] := by
    obtain ⟨g, hg, _⟩ := hD.ex0
    exact List.ne_nil_of_mem hg
  obtain ⟨bf', em, hu, -, hw, w0, hh, h0, hlen, hin⟩ := makeMono_keeps bf hm hne ok
  have e := hu.unique hD
  obtain ⟨texels, D', gs⟩ := bf'
  simp only at e hw w0 hh h0 hlen hin
  subst e
  rw [n] at hlen
  obtain ⟨s, f, es, eu, ex, h1, h2, h3⟩ := embed_cells T box D' texels bf gs em r.some r.few (Ready.listed r.x) (Ready.listed r.p)
    (Ready.listed r.b) (Ready.listed r.H) hw hh w0 h0 bw bh hlen
  have there : ∀ {i c : Nat}, (listed T)[i]? = some c → ∃ g, bf.glyphs[i]? = some g := by
    intro i c h
    rcases Nat.lt_or_ge i (listed T).length with h' | h'
    · exact ⟨_, List.getElem?_eq_getElem (n ▸ h')⟩
    · rw [List.getElem?_eq_none h'] at h; cases h
  refine ⟨s, f, es, eu, ex, ?_, h2, ?_⟩
  · intro i c g hi hg X Y
    rw [h1 i c hi, (hin i g hg).2]
  · intro hz hnz
    apply h3
    · intro i hi X Y hY
      obtain ⟨g, hg⟩ : ∃ g, bf.glyphs[i]? = some g := by rcases hi with h | h <;> exact there h
      rw [(hin i g hg).2]
      exact hz i g hi hg X Y hY
    · obtain ⟨i, g, X, hi, hg, hX⟩ := hnz
      exact ⟨i, X, hi, by rw [(hin i g hg).2]; exact hX⟩

/-- the glyphs are numbered in the order of their code points: 0 first; a later code point has a later glyph, unless it has
none; and every glyph is used -/
structure InOrder (T : List (BitVec 16)) (n : Nat) : Prop where
  first : T.getD 0 0 = 0
  up : ∀ c c', c < c' → T.getD c' 0 ≠ 0 → (T.getD c 0).toNat < (T.getD c' 0).toNat
  lt : ∀ c, (T.getD c 0).toNat < n
  all : ∀ i, i < n → ∃ c, c < T.length ∧ (T.getD c 0).toNat = i

theorem sorted_ext : ∀ (a b : List Nat), a.Pairwise (· < ·) → b.Pairwise (· < ·) → (∀ x, x ∈ a ↔ x ∈ b) → a = b := by
  intro a
  induction a with
  | nil =>
    intro b _ _ h
    cases b with
    | nil => rfl
    | cons y b => have := (h y).2 (by simp); cases this
  | cons x a ih =>
    intro b ha hb h
    cases b with
    | nil => have := (h x).1 (by simp); cases this
    | cons y b =>
      rw [List.pairwise_cons] at ha hb
      have hxy : x = y := by
        have h1 := (h x).1 (by simp)
        have h2 := (h y).2 (by simp)
        rcases List.mem_cons.1 h1 with h1 | h1
        · exact h1
        · rcases List.mem_cons.1 h2 with h2 | h2
          · exact h2.symm
          · have := hb.1 x h1; have := ha.1 y h2; omega
      subst hxy
      congr 1
      apply ih b ha.2 hb.2
      intro z
      have hz := h z
      simp only [List.mem_cons] at hz
      constructor
      · intro hm
        rcases hz.1 (.inr hm) with rfl | h'
        · have := ha.1 z hm; omega
        · exact h'
      · intro hm
        rcases hz.2 (.inr hm) with rfl | h'
        · have := hb.1 z hm; omega
        · exact h'

theorem InOrder.ranks {T : List (BitVec 16)} {n : Nat} (h : InOrder T n) :
    (listed T).map (fun c => (T.getD c 0).toNat) = List.range n := by
  apply sorted_ext
  · rw [List.pairwise_map]
    refine List.Pairwise.imp_of_mem ?_ (listed_sorted T)
    intro a b _ hb hab
    apply h.up a b hab
    rcases ((listed_mem T b).1 hb).2 with h' | h'
    · exact h'
    · omega
  · exact List.pairwise_lt_range
  · intro x
    rw [List.mem_map, List.mem_range]
    constructor
    · rintro ⟨c, _, rfl⟩; exact h.lt c
    · intro hx
      obtain ⟨c, hc, e⟩ := h.all x hx
      by_cases hz : T.getD c 0 = 0
      · refine ⟨0, (listed_mem T 0).2 ⟨by omega, .inr rfl⟩, ?_⟩
        rw [h.first, ← e, hz]
      · exact ⟨c, (listed_mem T c).2 ⟨hc, .inl hz⟩, e⟩

/-- A font whose glyphs are in the order of their code points and whose box is as large as the box around its glyphs is written
and unpacked without fault, and every code point is drawn with the same shape, black and white: shifted to the left edge, and
up or down; if `x` and `H` stand on the line at height 0, not up or down. -/
theorem embed_font_partial (T : List (BitVec 16)) (box D : Box) (bf : Bitmap) (r : Ready T) (hm : bf.mono = .zero) (ok : bf.Ok)
    (hD : Hull bf.glyphs D) (bw : box.width = D.width) (bh : box.height = D.height) (ord : InOrder T bf.glyphs.length) :
    ∃ s f, emit box T bf = some s ∧ s.unpack = some f ∧ f.box.x_min = 0 ∧
      (∀ c X Y, f.ink c X Y = lit (ink bf.texels (bf.glyphs.getD (T.getD c 0).toNat ⟨.zero, 0⟩)
        (X + D.x_min.toInt) (Y - f.box.y_min.toInt + D.y_min.toInt))) ∧
      ((∀ c, c = 'x'.toNat ∨ c = 'H'.toNat → ∀ X Y, Y < 0 → ink bf.texels (bf.glyphs.getD (T.getD c 0).toNat ⟨.zero, 0⟩) X Y = 0) →
        (∃ c X, (c = 'x'.toNat ∨ c = 'H'.toNat) ∧ ink bf.texels (bf.glyphs.getD (T.getD c 0).toNat ⟨.zero, 0⟩) X 0 ≠ 0) →
        f.box.y_min = D.y_min) := by
  have hr := ord.ranks
  have n : bf.glyphs.length = (listed T).length := by
    have := congrArg List.length hr
    simpa using this.symm
  obtain ⟨s, f, es, eu, ex, h1, h2, h3⟩ := embed_ranks T box D bf r hm ok hD bw bh n
  have rank : ∀ {i c : Nat}, (listed T)[i]? = some c → (T.getD c 0).toNat = i := by
    intro i c h
    have := congrArg (fun l => l[i]?) hr
    simp only [List.getElem?_map, h, Option.map_some] at this
    rcases Nat.lt_or_ge i bf.glyphs.length with h' | h'
    · rw [List.getElem?_range h'] at this; exact Option.some.inj this
    · rw [List.getElem?_eq_none (by simpa using h')] at this; cases this
  have gl : ∀ c, ∃ g, bf.glyphs[(T.getD c 0).toNat]? = some g := fun c => ⟨_, List.getElem?_eq_getElem (ord.lt c)⟩
  have core : ∀ c, c ∈ listed T → ∀ X Y, f.ink c X Y = lit (ink bf.texels (bf.glyphs.getD (T.getD c 0).toNat ⟨.zero, 0⟩)
        (X + D.x_min.toInt) (Y - f.box.y_min.toInt + D.y_min.toInt)) := by
    intro c hc X Y
    obtain ⟨i, hi⟩ := List.getElem?_of_mem hc
    obtain ⟨g, hg⟩ := gl c
    rw [List.getD_eq_getElem?_getD, hg, Option.getD_some]
    rw [rank hi] at hg
    exact h1 i c g hi hg X Y
  refine ⟨s, f, es, eu, ex, ?_, ?_⟩
  · intro c X Y
    by_cases hc : c ∈ listed T
    · exact core c hc X Y
    · rw [h2 c hc, core 0 (by rw [listed_mem]; exact ⟨List.length_pos_iff.2 r.some, .inr rfl⟩), ord.first]
      have : T.getD c 0 = 0 := by
        by_cases hz : T.getD c 0 = 0
        · exact hz
        · exact absurd (Ready.listed hz) hc
      rw [this]
  · intro hz hnz
    have of : ∀ {i c : Nat} {g : Glyph}, (listed T)[i]? = some c → bf.glyphs[i]? = some g →
        g = bf.glyphs.getD (T.getD c 0).toNat ⟨.zero, 0⟩ := by
      intro i c g hi hg
      rw [rank hi, List.getD_eq_getElem?_getD, hg]; rfl
    apply h3
    · rintro i g (hi | hi) hg X Y hY
      · rw [of hi hg]; exact hz 120 (.inl rfl) X Y hY
      · rw [of hi hg]; exact hz 72 (.inr rfl) X Y hY
    · obtain ⟨c, X, hc, hX⟩ := hnz
      have hm : c ∈ listed T := by
        rcases hc with rfl | rfl
        · exact Ready.listed r.x
        · exact Ready.listed r.H
      obtain ⟨i, hi⟩ := List.getElem?_of_mem hm
      obtain ⟨g, hg⟩ := gl c
      rw [rank hi] at hg
      refine ⟨i, g, X, ?_, hg, by rw [of hi hg]; exact hX⟩
      rcases hc with rfl | rfl
      · exact .inl hi
      · exact .inr hi

/-- the same for a font whose glyphs are in boxes of one size from the start -/
theorem embed_mono_partial (T : List (BitVec 16)) (box : Box) (bf : Bitmap) (n : Nat) (r : Ready T) (hm : bf.mono ≠ .zero)
    (hw : bf.mono.width = bf.mono.x_max.toInt - bf.mono.x_min.toInt) (hh : bf.mono.height = bf.mono.y_max.toInt - bf.mono.y_min.toInt)
    (w0 : 0 ≤ bf.mono.width) (h0 : 0 ≤ bf.mono.height) (len : bf.texels.length = n * (bf.mono.height.toNat * bf.mono.width.toNat))
    (bw : box.width = bf.mono.width) (bh : box.height = bf.mono.height) (ord : InOrder T n) :
    ∃ s f, emit box T bf = some s ∧ s.unpack = some f ∧ f.box.x_min = 0 ∧
      ∀ c X Y, f.ink c X Y = lit (ink bf.texels ⟨bf.mono, (T.getD c 0).toNat * (bf.mono.height.toNat * bf.mono.width.toNat)⟩
        (X + bf.mono.x_min.toInt) (Y - f.box.y_min.toInt + bf.mono.y_min.toInt)) := by
  have hr := ord.ranks
  have hn : n = (listed T).length := by
    have := congrArg List.length hr
    simpa using this.symm
  obtain ⟨s, f, es, eu, ex, h1, h2, -⟩ := embed_cells T box bf.mono bf.texels bf bf.glyphs (by unfold makeMono; rw [if_pos hm])
    r.some r.few (Ready.listed r.x) (Ready.listed r.p) (Ready.listed r.b) (Ready.listed r.H) hw hh w0 h0 bw bh (hn ▸ len)
  have core : ∀ c, c ∈ listed T → ∀ X Y, f.ink c X Y =
      lit (ink bf.texels ⟨bf.mono, (T.getD c 0).toNat * (bf.mono.height.toNat * bf.mono.width.toNat)⟩
        (X + bf.mono.x_min.toInt) (Y - f.box.y_min.toInt + bf.mono.y_min.toInt)) := by
    intro c hc X Y
    obtain ⟨i, hi⟩ := List.getElem?_of_mem hc
    have : (T.getD c 0).toNat = i := by
      have := congrArg (fun l => l[i]?) hr
      simp only [List.getElem?_map, hi, Option.map_some] at this
      rcases Nat.lt_or_ge i n with h' | h'
      · rw [List.getElem?_range h'] at this; exact Option.some.inj this
      · rw [List.getElem?_eq_none (by simpa using h')] at this; cases this
    rw [this]
    exact h1 i c hi X Y
  refine ⟨s, f, es, eu, ex, ?_⟩
  intro c X Y
  by_cases hc : c ∈ listed T
  · exact core c hc X Y
  · rw [h2 c hc, core 0 (by rw [listed_mem]; exact ⟨List.length_pos_iff.2 r.some, .inr rfl⟩), ord.first]
    have : T.getD c 0 = 0 := by
      by_cases hz : T.getD c 0 = 0
      · exact hz
      · exact absurd (Ready.listed hz) hc
    rw [this]

/-- A font whose box is larger than the box around its glyphs (or not of its size otherwise) is written, but what is written
aborts when it is run, as soon as the difference is 64 pixels in all. -/
theorem embed_box_wrong_partial (T : List (BitVec 16)) (box D : Box) (bf : Bitmap) (hm : bf.mono = .zero) (ok : bf.Ok)
    (hD : Hull bf.glyphs D) (n : bf.glyphs.length = (listed T).length)
    (wrong : bf.glyphs.length * (D.height.toNat * D.width.toNat) + 63 < bf.glyphs.length * (box.width.toNat * box.height.toNat)) :
    ∃ s, emit box T bf = some s ∧ s.unpack = none := by
  have hne : bf.glyphs ≠ [] := by
    obtain ⟨g, hg, _⟩ := hD.ex0
    exact List.ne_nil_of_mem hg
  obtain ⟨bf', em, hu, -, hw, w0, hh, h0, hlen, hin⟩ := makeMono_keeps bf hm hne ok
  have e := hu.unique hD
  obtain ⟨texels, D', gs⟩ := bf'
  simp only at e hw w0 hh h0 hlen hin
  subst e
  refine ⟨_, by unfold emit; rw [em]; rfl, ?_⟩
  unfold Source.unpack
  simp only
  rw [readList_text, Option.bind_some, readList_text, Option.bind_some]
  have e1 : ((bytesToBits texels).map BitVec.toNat).map (BitVec.ofNat 64) = bytesToBits texels := by
    rw [List.map_map]
    conv => rhs; rw [← List.map_id (bytesToBits texels)]
    congr 1
    funext v
    simp
  rw [e1]
  obtain ⟨rr, er, hr, -⟩ := bits_round texels
  unfold make
  simp only [er, Option.bind_some, List.length_map]
  rw [← n, hr, hlen]
  cases measure _ _ _ _ 'x' <;> cases measure _ _ _ _ 'p' <;> cases measure _ _ _ _ 'b' <;> cases measure _ _ _ _ 'H' <;>
    cases table ((listed T).map (BitVec.ofNat 16)) <;> try rfl
  simp only [Option.bind_some]
  rw [if_neg (by omega)]

end Verif.Embed

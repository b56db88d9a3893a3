import Verif.Lsm.Model
import Verif.Tactics

/-! Lemmas about looking into runs of entries, tables and levels. -/

namespace Verif.Lsm

variable {K V : Type} [LinearOrder K]

/-- A run of entries in order. -/
def Sorted (es : List (Entry K V)) : Prop := es.Pairwise (fun a b => prior a b = true)

theorem prior_iff (a b : Entry K V) :
    prior a b = true ↔ a.key < b.key ∨ (a.key = b.key ∧ b.seq < a.seq) := by
  simp [prior]

theorem reached_iff (k : K) (s : Nat) (e : Entry K V) :
    reached k s e = true ↔ k < e.key ∨ (k = e.key ∧ e.seq ≤ s) := by
  simp [reached]

theorem prior_trans {a b c : Entry K V} (h : prior a b = true) (h' : prior b c = true) :
    prior a c = true := by
  rw [prior_iff] at *
  grind

/-- The newest entry of a key at or below a number, in a collection. -/
def Newest (P : Entry K V → Prop) (k : K) (s : Nat) (e : Entry K V) : Prop :=
  P e ∧ e.key = k ∧ e.seq ≤ s ∧ ∀ x, P x → x.key = k → x.seq ≤ s → x.seq ≤ e.seq

/-- The collection has no entry of a key at or below a number. -/
def Absent (P : Entry K V → Prop) (k : K) (s : Nat) : Prop :=
  ∀ x, P x → x.key = k → s < x.seq

/-- The outcome of a look is right for a collection. -/
def Right (P : Entry K V → Prop) (k : K) (s : Nat) (r : Option (Entry K V)) : Prop :=
  (∀ e, r = some e → Newest P k s e) ∧ (r = none → Absent P k s)

theorem right_congr {P Q : Entry K V → Prop} {k : K} {s : Nat} {r : Option (Entry K V)}
    (h : ∀ e, P e ↔ Q e) (hr : Right P k s r) : Right Q k s r := by
  have : P = Q := funext fun e => propext (h e)
  rwa [← this]

theorem look_right {es : List (Entry K V)} (h : Sorted es) (k : K) (s : Nat) :
    Right (· ∈ es) k s (look es k s) := by
  unfold look
  cases hf : es.find? (reached k s) with
  | none =>
    refine ⟨by simp, fun _ x hx hk => ?_⟩
    rw [List.find?_eq_none] at hf
    have := hf x hx
    rw [reached_iff] at this
    grind
  | some e =>
    rw [List.find?_eq_some_iff_append] at hf
    obtain ⟨he, as, bs, rfl, has⟩ := hf
    rw [reached_iff] at he
    have hpw := List.pairwise_append.1 h
    have hcons := List.pairwise_cons.1 hpw.2.1
    have hlater : ∀ x ∈ as ++ e :: bs, x.key = k → x.seq ≤ s → x = e ∨ prior e x = true := by
      intro x hx hk hs
      rcases List.mem_append.1 hx with hx | hx
      · have := has x hx
        simp [reached, hk, hs] at this
      · rcases List.mem_cons.1 hx with rfl | hx
        · exact .inl rfl
        · exact .inr (hcons.1 x hx)
    simp only
    split
    · rename_i hk
      refine ⟨fun e' h' => ?_, by simp⟩
      cases h'
      refine ⟨by simp, hk, by grind, fun x hx hxk hxs => ?_⟩
      rcases hlater x hx hxk hxs with rfl | hp
      · exact le_refl _
      · rw [prior_iff] at hp
        grind
    · rename_i hk
      refine ⟨by simp, fun _ x hx hxk => ?_⟩
      by_contra hlt
      rcases hlater x hx hxk (by omega) with rfl | hp
      · exact hk hxk
      · rw [prior_iff] at hp
        grind

/-- A table is in order: its entries are sorted, and its record tells the first and the last. -/
structure FileOk (f : File K V) : Prop where
  sorted : Sorted f.es
  lo_mem : f.lo ∈ f.es
  hi_mem : f.hi ∈ f.es
  lo_le : ∀ x ∈ f.es, f.lo.key ≤ x.key
  le_hi : ∀ x ∈ f.es, x = f.hi ∨ prior x f.hi = true

theorem FileOk.key_le {f : File K V} (h : FileOk f) {x : Entry K V} (hx : x ∈ f.es) :
    x.key ≤ f.hi.key := by
  rcases h.le_hi x hx with rfl | hp
  · exact le_refl _
  · rw [prior_iff] at hp
    grind

theorem FileOk.lo_le_hi {f : File K V} (h : FileOk f) : f.lo.key ≤ f.hi.key := h.key_le h.lo_mem

/-- Tables of a deeper level: apart from each other and in order. -/
def Ordered (fs : List (File K V)) : Prop := fs.Pairwise (fun f g => f.hi.key < g.lo.key)

/-- An entry is in one of some tables. -/
def InFiles (fs : List (File K V)) (e : Entry K V) : Prop := ∃ f ∈ fs, e ∈ f.es

theorem lookN_right {fs : List (File K V)} (hok : ∀ f ∈ fs, FileOk f) (ho : Ordered fs)
    (k : K) (s : Nat) : Right (InFiles fs) k s (lookN fs k s) := by
  unfold lookN
  cases hf : fs.find? (fun f => reached k s f.hi) with
  | none =>
    refine ⟨by simp, fun _ x ⟨f, hfm, hx⟩ hk => ?_⟩
    rw [List.find?_eq_none] at hf
    have h1 := hf f hfm
    rw [reached_iff] at h1
    rcases (hok f hfm).le_hi x hx with rfl | hp
    · grind
    · rw [prior_iff] at hp
      grind
  | some f =>
    rw [List.find?_eq_some_iff_append] at hf
    obtain ⟨hr, as, bs, rfl, has⟩ := hf
    rw [reached_iff] at hr
    have hpw := List.pairwise_append.1 ho
    have hcons := List.pairwise_cons.1 hpw.2.1
    have hok' := hok f (by simp)
    have honly : ∀ x, InFiles (as ++ f :: bs) x → x.key = k → x.seq ≤ s →
        (f.lo.key ≤ k ∧ x ∈ f.es) ∨ f.lo.key ≤ k := by
      rintro x ⟨g, hg, hx⟩ hk hs
      rcases List.mem_append.1 hg with hg | hg
      · exfalso
        have h1 := has g hg
        simp only [Bool.not_eq_true', Bool.eq_false_iff, ne_eq, reached_iff] at h1
        rcases (hok g (by simp [hg])).le_hi x hx with rfl | hp
        · grind
        · rw [prior_iff] at hp
          grind
      · rcases List.mem_cons.1 hg with rfl | hg
        · left
          exact ⟨hk ▸ hok'.lo_le x hx, hx⟩
        · right
          have h1 := hcons.1 g hg
          have h2 := (hok g (by simp [hg])).lo_le x hx
          have h3 := hok'.lo_le_hi
          grind
    have honly2 : f.lo.key ≤ k → ∀ x, InFiles (as ++ f :: bs) x → x.key = k → x.seq ≤ s →
        x ∈ f.es := by
      rintro hlo x ⟨g, hg, hx⟩ hk hs
      rcases List.mem_append.1 hg with hg | hg
      · exfalso
        have h1 := has g hg
        simp only [Bool.not_eq_true', Bool.eq_false_iff, ne_eq, reached_iff] at h1
        rcases (hok g (by simp [hg])).le_hi x hx with rfl | hp
        · grind
        · rw [prior_iff] at hp
          grind
      · rcases List.mem_cons.1 hg with rfl | hg
        · exact hx
        · exfalso
          have h1 := hcons.1 g hg
          have h2 := (hok g (by simp [hg])).lo_le x hx
          grind
    simp only
    split
    · rename_i hlo
      have hl := look_right hok'.sorted k s
      refine ⟨fun e he => ?_, fun hn x hx hk => ?_⟩
      · obtain ⟨h1, h2, h3, h4⟩ := hl.1 e he
        exact ⟨⟨f, by simp, h1⟩, h2, h3, fun x hx hk hs => h4 x (honly2 hlo x hx hk hs) hk hs⟩
      · by_contra hlt
        exact hlt (hl.2 hn x (honly2 hlo x hx hk (by omega)) hk)
    · rename_i hlo
      refine ⟨by simp, fun _ x hx hk => ?_⟩
      by_contra hlt
      rcases honly x hx hk (by omega) with h | h
      · exact hlo h.1
      · exact hlo h

theorem newer_right {P Q : Entry K V → Prop} {k : K} {s : Nat} {z x : Option (Entry K V)}
    (hz : Right P k s z) (hx : Right Q k s x) : Right (fun e => P e ∨ Q e) k s (newer z x) := by
  cases z with
  | none =>
    cases x with
    | none =>
      refine ⟨by simp [newer], fun _ e he hk => ?_⟩
      rcases he with he | he
      · exact hz.2 rfl e he hk
      · exact hx.2 rfl e he hk
    | some e =>
      refine ⟨fun e' h' => ?_, by simp [newer]⟩
      simp only [newer, Option.some.injEq] at h'
      subst h'
      obtain ⟨h1, h2, h3, h4⟩ := hx.1 e rfl
      refine ⟨.inr h1, h2, h3, fun y hy hk hs => ?_⟩
      rcases hy with hy | hy
      · have := hz.2 rfl y hy hk
        omega
      · exact h4 y hy hk hs
  | some a =>
    obtain ⟨a1, a2, a3, a4⟩ := hz.1 a rfl
    cases x with
    | none =>
      refine ⟨fun e' h' => ?_, by simp [newer]⟩
      simp only [newer, Option.some.injEq] at h'
      subst h'
      refine ⟨.inl a1, a2, a3, fun y hy hk hs => ?_⟩
      rcases hy with hy | hy
      · exact a4 y hy hk hs
      · have := hx.2 rfl y hy hk
        omega
    | some b =>
      obtain ⟨b1, b2, b3, b4⟩ := hx.1 b rfl
      simp only [newer]
      split
      · rename_i hle
        refine ⟨fun e' h' => ?_, by simp⟩
        cases h'
        refine ⟨.inr b1, b2, b3, fun y hy hk hs => ?_⟩
        rcases hy with hy | hy
        · exact le_trans (a4 y hy hk hs) hle
        · exact b4 y hy hk hs
      · rename_i hle
        refine ⟨fun e' h' => ?_, by simp⟩
        cases h'
        refine ⟨.inl a1, a2, a3, fun y hy hk hs => ?_⟩
        rcases hy with hy | hy
        · exact a4 y hy hk hs
        · have := b4 y hy hk hs
          omega

theorem look0_right {fs : List (File K V)} (hok : ∀ f ∈ fs, FileOk f) (k : K) (s : Nat) :
    Right (InFiles fs) k s (look0 fs k s) := by
  have key : ∀ (fs : List (File K V)) (P : Entry K V → Prop) (z : Option (Entry K V)),
      (∀ f ∈ fs, FileOk f) → Right P k s z →
      Right (fun e => P e ∨ InFiles fs e) k s
        (fs.foldl (fun z f => if f.meets k k then newer z (look f.es k s) else z) z) := by
    intro fs
    induction fs with
    | nil =>
      intro P z _ hz
      exact right_congr (fun e => by simp [InFiles]) hz
    | cons f fs ih =>
      intro P z hok hz
      have hf := hok f (by simp)
      rw [List.foldl_cons]
      have hstep : Right (fun e => P e ∨ e ∈ f.es) k s
          (if f.meets k k then newer z (look f.es k s) else z) := by
        split
        · exact newer_right hz (look_right hf.sorted k s)
        · rename_i hm
          have hno : ∀ x ∈ f.es, x.key ≠ k := by
            rintro x hx rfl
            exact hm (by simp [File.meets, hf.key_le hx, hf.lo_le x hx])
          refine ⟨fun e he => ?_, fun hn x hx hk => ?_⟩
          · obtain ⟨h1, h2, h3, h4⟩ := hz.1 e he
            refine ⟨.inl h1, h2, h3, fun y hy hk hs => ?_⟩
            rcases hy with hy | hy
            · exact h4 y hy hk hs
            · exact absurd hk (hno y hy)
          · rcases hx with hx | hx
            · exact hz.2 hn x hx hk
            · exact absurd hk (hno x hx)
      refine right_congr (fun e => ?_) (ih _ _ (fun g hg => hok g (by simp [hg])) hstep)
      simp only [InFiles, List.mem_cons]
      constructor
      · rintro ((h | h) | ⟨g, hg, h⟩)
        · exact .inl h
        · exact .inr ⟨f, .inl rfl, h⟩
        · exact .inr ⟨g, .inr hg, h⟩
      · rintro (h | ⟨g, rfl | hg, h⟩)
        · exact .inl (.inl h)
        · exact .inl (.inr h)
        · exact .inr ⟨g, hg, h⟩
  have := key fs (fun _ => False) none hok ⟨by simp, fun _ x hx => hx.elim⟩
  exact right_congr (fun e => by simp) this

/-- First one place and then another, where the entries of one key in the first are newer. -/
theorem orElse_right {P Q : Entry K V → Prop} {k : K} {s : Nat} {x y : Option (Entry K V)}
    (hx : Right P k s x) (hy : Right Q k s y)
    (hn : ∀ e e', P e → Q e' → e.key = e'.key → e'.seq < e.seq) :
    Right (fun e => P e ∨ Q e) k s
      (match (generalizing := false) x with | some e => some e | none => y) := by
  cases x with
  | some e =>
    refine ⟨fun e' h' => ?_, by simp⟩
    cases h'
    obtain ⟨h1, h2, h3, h4⟩ := hx.1 e rfl
    refine ⟨.inl h1, h2, h3, fun z hz hk hs => ?_⟩
    rcases hz with hz | hz
    · exact h4 z hz hk hs
    · exact (hn e z h1 hz (by rw [h2, hk])).le
  | none =>
    refine ⟨fun e he => ?_, fun h z hz hk => ?_⟩
    · obtain ⟨h1, h2, h3, h4⟩ := hy.1 e he
      refine ⟨.inr h1, h2, h3, fun z hz hk hs => ?_⟩
      rcases hz with hz | hz
      · have := hx.2 rfl z hz hk
        omega
      · exact h4 z hz hk hs
    · rcases hz with hz | hz
      · exact hx.2 rfl z hz hk
      · exact hy.2 h z hz hk

/-- The levels: those above 0 in order, and each newer than the deeper ones. -/
structure LevOk (lev : Nat → List (File K V)) : Prop where
  file_ok : ∀ i, ∀ f ∈ lev i, FileOk f
  ordered : ∀ i, 1 ≤ i → Ordered (lev i)
  newer : ∀ i j, i < j → ∀ f ∈ lev i, ∀ g ∈ lev j, ∀ e ∈ f.es, ∀ x ∈ g.es, e.key = x.key →
    x.seq < e.seq

/-- An entry is in a table of some level. -/
def InLev (lev : Nat → List (File K V)) (e : Entry K V) : Prop := ∃ i, ∃ f ∈ lev i, e ∈ f.es

theorem deep_right {lev : Nat → List (File K V)} (h : LevOk lev) (k : K) (s : Nat) :
    ∀ n a, 1 ≤ a → Right (fun e => ∃ i, a ≤ i ∧ i < a + n ∧ InFiles (lev i) e) k s
      ((List.range' a n).findSome? (fun i => lookN (lev i) k s)) := by
  intro n
  induction n with
  | zero =>
    intro a _
    refine ⟨by simp, ?_⟩
    rintro _ x ⟨i, h1, h2, _⟩
    omega
  | succ n ih =>
    intro a ha
    rw [List.range'_succ, List.findSome?_cons]
    have h1 := lookN_right (h.file_ok a) (h.ordered a ha) k s
    have h2 := ih (a + 1) (by omega)
    have h3 := orElse_right h1 h2 (by
      rintro e e' ⟨f, hf, he⟩ ⟨i, hi, _, g, hg, he'⟩ hk
      exact h.newer a i (by omega) f hf g hg e he e' he' hk)
    have h4 : Right (fun e => ∃ i, a ≤ i ∧ i < a + (n + 1) ∧ InFiles (lev i) e) k s _ :=
      right_congr (fun e => by
        constructor
        · rintro (h | ⟨i, h1, h2, h⟩)
          · exact ⟨a, le_refl _, by omega, h⟩
          · exact ⟨i, by omega, by omega, h⟩
        · rintro ⟨i, h1, h2, h⟩
          by_cases hi : i = a
          · subst hi
            exact .inl h
          · exact .inr ⟨i, by omega, by omega, h⟩) h3
    revert h4
    cases lookN (lev a) k s <;> exact id

theorem lookVersion_right {lev : Nat → List (File K V)} {depth : Nat} (h : LevOk lev)
    (hd : ∀ i, depth ≤ i → lev i = []) (k : K) (s : Nat) :
    Right (InLev lev) k s (lookVersion lev depth k s) := by
  unfold lookVersion
  have h1 := look0_right (h.file_ok 0) k s
  have h2 := deep_right h k s (depth - 1) 1 (le_refl _)
  have h3 := orElse_right h1 h2 (by
    rintro e e' ⟨f, hf, he⟩ ⟨i, hi, _, g, hg, he'⟩ hk
    exact h.newer 0 i (by omega) f hf g hg e he e' he' hk)
  refine right_congr (fun e => ?_) h3
  constructor
  · rintro (⟨f, hf, he⟩ | ⟨i, _, _, f, hf, he⟩)
    · exact ⟨0, f, hf, he⟩
    · exact ⟨i, f, hf, he⟩
  · rintro ⟨i, f, hf, he⟩
    by_cases hi : i = 0
    · subst hi
      exact .inl ⟨f, hf, he⟩
    · by_cases hd' : depth ≤ i
      · rw [hd i hd'] at hf
        simp at hf
      · exact .inr ⟨i, by omega, by omega, f, hf, he⟩

end Verif.Lsm

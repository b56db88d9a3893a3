import Verif.Sync.ChunkSpec

/-!
# Chunks that are read

Property C84. -/

namespace Verif.Sync

theorem LinkedS.append {a b c : Nat × Nat} {l m : List SBlk} (h1 : LinkedS a l b) (h2 : LinkedS b m c) : LinkedS a (l ++ m) c := by
  induction l generalizing a with
  | nil => simp only [LinkedS] at h1; subst h1; exact h2
  | cons s r ih => exact ⟨h1.1, h1.2.1, ih h1.2.2⟩

theorem LinkedS.split {a c : Nat × Nat} {l : List SBlk} {b : SBlk} (h : LinkedS a (l ++ [b]) c) :
    ∃ d, LinkedS a l d ∧ b.height = d.1 + 1 ∧ b.prev = d.2 ∧ c = (b.height, b.hash) := by
  induction l generalizing a with
  | nil =>
    obtain ⟨h1, h2, h3⟩ := h
    exact ⟨a, rfl, h1, h2, h3.symm⟩
  | cons s r ih =>
    obtain ⟨h1, h2, h3⟩ := h
    obtain ⟨d, e1, e2⟩ := ih h3
    exact ⟨d, ⟨h1, h2, e1⟩, e2⟩

theorem LinkedS.height {a b : Nat × Nat} {l : List SBlk} (h : LinkedS a l b) : b.1 = a.1 + l.length := by
  induction l generalizing a with
  | nil => simp only [LinkedS] at h; subst h; rfl
  | cons s r ih =>
    have := ih h.2.2
    have := h.1
    simp only [List.length_cons] at *
    omega

/-- The shape of a chunk while it is read: all slots but the last have linked snapshot blocks; the last one has one only when all blocks are there. -/
structure Shape (c : Chunk) (s : List Slot) (u : Slot) (d : List SBlk) (e : Nat × Nat) : Prop where
  slots : c.slots = s ++ [u]
  snaps : s.map (·.snap) = d.map some
  linked : LinkedS c.first d e
  len : d.length < c.cap
  full : ∀ x, u.snap = some x → d.length + 1 = c.cap ∧ x.height = e.1 + 1 ∧ x.prev = e.2

theorem Shape.before {c : Chunk} {s : List Slot} {u : Slot} {d : List SBlk} {e : Nat × Nat} (h : Shape c s u d e) : c.before = e := by
  have hl : s.length = d.length := by
    have := congrArg List.length h.snaps
    simpa using this
  unfold Chunk.before
  rw [h.slots]
  rcases List.eq_nil_or_concat d with rfl | ⟨d', x, rfl⟩
  · have : s = [] := List.eq_nil_of_length_eq_zero hl
    subst this
    simp only [List.nil_append, List.length_singleton, Nat.reduceLT, if_true]
    exact h.linked
  · obtain ⟨e', h1, h2, h3, h4⟩ := LinkedS.split (by simpa using h.linked)
    rcases List.eq_nil_or_concat s with rfl | ⟨s', y, rfl⟩
    · simp at hl
    · simp only [List.concat_eq_append] at *
      have hy : y.snap = some x := by
        have := h.snaps
        simp only [List.map_append, List.map_cons, List.map_nil] at this
        have := (List.append_inj' this rfl).2
        simpa using this
      rw [if_neg (by simp)]
      have : (s' ++ [y] ++ [u])[(s' ++ [y] ++ [u]).length - 2]? = some y := by
        have e1 : (s' ++ [y] ++ [u]).length - 2 = s'.length := by simp
        rw [e1, List.append_assoc, List.getElem?_append_right (Nat.le_refl _)]
        simp
      rw [this]
      obtain ⟨ya, ys⟩ := y
      simp only at hy
      subst hy
      rw [h4]

theorem shape_new {first last : Nat × Nat} (h : first.1 < last.1) : Shape (newChunk first last) [] ⟨[], none⟩ [] first :=
  ⟨rfl, rfl, rfl, by show 0 < last.1 - first.1; omega, by simp⟩

theorem getLastD_snoc {α : Type} (l : List α) (x d : α) : (l ++ [x]).getLastD d = x := by
  simp

theorem addA_some {c c' : Chunk} {b : ABlk} (ha : c.addA b = some c') : (∀ p, c.acct b.addr = some p → p.2 = b.prev ∧ p.1 + 1 = b.height) ∧
    c' = { c with
      slots := c.slots.dropLast ++ [{ c.slots.getLastD ⟨[], none⟩ with accs := (c.slots.getLastD ⟨[], none⟩).accs ++ [b] }]
      accts := (b.addr, (b.height, b.hash)) :: c.accts, hashes := b.hash :: c.hashes } := by
  unfold Chunk.addA at ha
  cases hc : c.acct b.addr with
  | none =>
    rw [hc] at ha
    simp only [if_true, Option.some.injEq] at ha
    exact ⟨fun p hp => (by cases hp), ha.symm⟩
  | some p =>
    rw [hc] at ha
    simp only [decide_eq_true_eq] at ha
    split at ha
    · rename_i hok
      simp only [Option.some.injEq] at ha
      refine ⟨fun q hq => ?_, ha.symm⟩
      cases hq
      exact hok
    · cases ha

theorem shape_addA {c c' : Chunk} {s : List Slot} {u : Slot} {d : List SBlk} {e : Nat × Nat} (h : Shape c s u d e) {b : ABlk} (ha : c.addA b = some c') :
    Shape c' s { u with accs := u.accs ++ [b] } d e ∧ c'.first = c.first ∧ c'.last = c.last := by
  obtain ⟨-, rfl⟩ := addA_some ha
  refine ⟨⟨?_, h.snaps, h.linked, h.len, h.full⟩, rfl, rfl⟩
  show c.slots.dropLast ++ [_] = _
  rw [h.slots, List.dropLast_concat, getLastD_snoc]

theorem shape_addS {c c' : Chunk} {s : List Slot} {u : Slot} {d : List SBlk} {e : Nat × Nat} (h : Shape c s u d e) {b : SBlk} (ha : c.addS b = some c') :
    c'.first = c.first ∧ c'.last = c.last ∧
      ((d.length + 1 < c.cap ∧ Shape c' (s ++ [{ u with snap := some b }]) ⟨[], none⟩ (d ++ [b]) (b.height, b.hash)) ∨
        (d.length + 1 = c.cap ∧ Shape c' s { u with snap := some b } d e)) := by
  have hl : s.length = d.length := by
    have := congrArg List.length h.snaps
    simpa using this
  unfold Chunk.addS at ha
  rw [h.before] at ha
  split at ha
  · cases ha
  · rename_i hc
    split at ha
    · cases ha
    · simp only [Option.some.injEq] at ha
      subst ha
      have hb : b.prev = e.2 ∧ b.height = e.1 + 1 := by
        constructor
        · by_contra hh; exact hc (Or.inl hh)
        · by_contra hh; exact hc (Or.inr hh)
      refine ⟨rfl, rfl, ?_⟩
      have hslots : c.slots.dropLast ++ [{ c.slots.getLastD ⟨[], none⟩ with snap := some b }] = s ++ [{ u with snap := some b }] := by
        rw [h.slots, List.dropLast_concat, getLastD_snoc]
      have hlen : c.slots.length = d.length + 1 := by rw [h.slots, List.length_append, hl]; rfl
      rw [hslots, hlen]
      by_cases hcap : d.length + 1 < c.cap
      · left
        refine ⟨hcap, ⟨?_, ?_, ?_, ?_, by simp⟩⟩
        · show (if d.length + 1 < c.cap then _ else _) = _
          rw [if_pos hcap]
        · rw [List.map_append, h.snaps]
          simp
        · exact h.linked.append ⟨hb.2, hb.1, rfl⟩
        · show (d ++ [b]).length < c.cap
          rw [List.length_append]
          exact hcap
      · right
        have hlen' := h.len
        refine ⟨by omega, ⟨?_, h.snaps, h.linked, h.len, ?_⟩⟩
        · show (if d.length + 1 < c.cap then _ else _) = _
          rw [if_neg hcap]
        · intro x hx
          simp only [Option.some.injEq] at hx
          subst hx
          exact ⟨by show d.length + 1 = c.cap; omega, hb.2, hb.1⟩

/-! ## Accounts -/

theorem linkedA_snoc {l : List ABlk} {b : ABlk} (h : LinkedA l) (hb : ∀ x, l.getLast? = some x → b.height = x.height + 1 ∧ b.prev = x.hash) : LinkedA (l ++ [b]) := by
  induction l with
  | nil => trivial
  | cons x l ih =>
    cases l with
    | nil =>
      obtain ⟨h1, h2⟩ := hb x rfl
      exact ⟨h1, h2, trivial⟩
    | cons y l =>
      refine ⟨h.1, h.2.1, ih h.2.2 (fun z hz => hb z ?_)⟩
      rw [List.getLast?_cons_cons]
      exact hz

/-- What the chunk knows of the accounts: all blocks in order, linked for every account, and the last block of every account. -/
structure Accts (c : Chunk) (accs : List ABlk) : Prop where
  all : c.slots.flatMap (·.accs) = accs
  linked : ∀ a, LinkedA (accs.filter (fun b => decide (b.addr = a)))
  last : ∀ a, c.acct a = ((accs.filter (fun b => decide (b.addr = a))).getLast?).map (fun b => (b.height, b.hash))

theorem accts_new (first last : Nat × Nat) : Accts (newChunk first last) [] := ⟨rfl, fun _ => trivial, fun _ => rfl⟩

theorem accts_addA {c c' : Chunk} {accs : List ABlk} (h : Accts c accs) (hne : c.slots ≠ []) {b : ABlk} (ha : c.addA b = some c') : Accts c' (accs ++ [b]) := by
  obtain ⟨hok, rfl⟩ := addA_some ha
  · refine ⟨?_, ?_, ?_⟩
    · rw [← h.all]
      obtain ⟨s, u, hs⟩ : ∃ s u, c.slots = s ++ [u] := ⟨c.slots.dropLast, c.slots.getLast hne, (List.dropLast_append_getLast hne).symm⟩
      rw [hs, List.dropLast_concat, getLastD_snoc]
      simp
    · intro a
      rw [List.filter_append, List.filter_cons]
      by_cases hba : b.addr = a
      · simp only [hba, decide_true, if_true, List.filter_nil]
        refine linkedA_snoc (h.linked a) (fun x hx => ?_)
        have hl := h.last a
        rw [hx] at hl
        obtain ⟨o1, o2⟩ := hok (x.height, x.hash) (by rw [hba, hl]; rfl)
        exact ⟨o2.symm, o1.symm⟩
      · simp only [hba, decide_false, Bool.false_eq_true, if_false, List.filter_nil, List.append_nil]
        exact h.linked a
    · intro a
      rw [List.filter_append, List.filter_cons]
      by_cases hba : b.addr = a
      · simp [Chunk.acct, hba]
      · have := h.last a
        unfold Chunk.acct at this
        simp only [hba, decide_false, Bool.false_eq_true, if_false, List.filter_nil, List.append_nil, Chunk.acct, List.find?_cons]
        exact this

theorem accts_addS {c c' : Chunk} {accs : List ABlk} (h : Accts c accs) (hne : c.slots ≠ []) {b : SBlk} (ha : c.addS b = some c') : Accts c' accs := by
  unfold Chunk.addS at ha
  split at ha
  · cases ha
  · split at ha
    · cases ha
    · simp only [Option.some.injEq] at ha
      subst ha
      refine ⟨?_, h.linked, h.last⟩
      rw [← h.all]
      obtain ⟨s, u, hs⟩ : ∃ s u, c.slots = s ++ [u] := ⟨c.slots.dropLast, c.slots.getLast hne, (List.dropLast_append_getLast hne).symm⟩
      rw [hs, List.dropLast_concat, getLastD_snoc]
      split <;> simp

theorem Shape.ne {c : Chunk} {s : List Slot} {u : Slot} {d : List SBlk} {e : Nat × Nat} (h : Shape c s u d e) : c.slots ≠ [] := by
  rw [h.slots]; simp

/-! ## Reading -/

/-- The snapshot blocks of the chunk are blocks of the file. -/
def From (c : Chunk) (l : List SBlk) : Prop := ∀ t ∈ c.slots, ∀ x, t.snap = some x → x ∈ l

theorem from_addA {c c' : Chunk} {l : List SBlk} (h : From c l) {s : List Slot} {u : Slot} (hs : c.slots = s ++ [u]) {b : ABlk} (ha : c.addA b = some c') : From c' l := by
  obtain ⟨-, rfl⟩ := addA_some ha
  · intro t ht x hx
    simp only [hs, List.dropLast_concat, getLastD_snoc, List.mem_append, List.mem_singleton] at ht
    rcases ht with ht | rfl
    · exact h t (by rw [hs]; simp [ht]) x hx
    · exact h u (by rw [hs]; simp) x hx

theorem from_addS {c c' : Chunk} {l : List SBlk} (h : From c l) {s : List Slot} {u : Slot} (hs : c.slots = s ++ [u]) {b : SBlk} (ha : c.addS b = some c') : From c' (l ++ [b]) := by
  unfold Chunk.addS at ha
  split at ha
  · cases ha
  · split at ha
    · cases ha
    · simp only [Option.some.injEq] at ha
      subst ha
      intro t ht x hx
      simp only [hs, List.dropLast_concat, getLastD_snoc] at ht
      have key : t ∈ s ++ [{ u with snap := some b }] ∨ t = ⟨[], none⟩ := by
        split at ht
        · rcases List.mem_append.mp ht with ht | ht
          · exact Or.inl ht
          · exact Or.inr (by simpa using ht)
        · exact Or.inl ht
      rcases key with ht | rfl
      · rcases List.mem_append.mp ht with ht | ht
        · exact List.mem_append_left _ (h t (by rw [hs]; simp [ht]) x hx)
        · simp only [List.mem_singleton] at ht
          subst ht
          simp only [Option.some.injEq] at hx
          subst hx
          simp
      · cases hx

theorem read_inv {j : Judge} (l : List Frame) {c c' : Chunk} {s : List Slot} {u : Slot} {d : List SBlk} {e : Nat × Nat} {accs : List ABlk} {sn : List SBlk}
    (h : Shape c s u d e) (hA : Accts c accs) (hF : From c sn) (hcl : Clean j l) (hr : readChunk j c l = .chunk c') :
    c'.first = c.first ∧ c'.last = c.last ∧ (∃ s u d e, Shape c' s u d e) ∧ Accts c' (accs ++ accsOf l) ∧ From c' (sn ++ snapsOf l) ∧ c'.isDone = true ∧
      (j.verified = false → (∀ b ∈ accsOf l, j.okA b = true) ∧ ∀ b ∈ snapsOf l, j.okS b = true) := by
  induction l generalizing c s u d e accs sn with
  | nil =>
    unfold readChunk at hr
    split at hr
    · rename_i hd
      cases hr
      exact ⟨rfl, rfl, ⟨s, u, d, e, h⟩, by simpa [accsOf] using hA, by simpa [snapsOf] using hF, hd, fun _ => ⟨by simp [accsOf], by simp [snapsOf]⟩⟩
    · cases hr
  | cons f l ih =>
    cases f with
    | halt => simp [readChunk] at hr
    | bad => simp [readChunk] at hr
    | acc b =>
      unfold readChunk at hr
      rw [hcl.1 b (by simp [accsOf]), if_neg (by simp)] at hr
      split at hr
      · cases hr
      · rename_i hv
        split at hr
        · rename_i c1 h1
          obtain ⟨k1, k2, k3⟩ := shape_addA h h1
          obtain ⟨r1, r2, r3, r4, r5, r6, r7⟩ := ih k1 (accts_addA hA h.ne h1) (from_addA hF h.slots h1)
            ⟨fun x hx => hcl.1 x (by simp [accsOf, hx]), fun x hx => hcl.2 x (by simpa [snapsOf] using hx)⟩ hr
          refine ⟨r1.trans k2, r2.trans k3, r3, ?_, by simpa [snapsOf] using r5, r6, fun hver => ⟨fun x hx => ?_, fun x hx => ?_⟩⟩
          · simpa [accsOf] using r4
          · simp only [accsOf, List.mem_cons] at hx
            rcases hx with rfl | hx
            · rw [hver] at hv
              simpa using hv
            · exact (r7 hver).1 x hx
          · exact (r7 hver).2 x (by simpa [snapsOf] using hx)
        · cases hr
    | snap b =>
      unfold readChunk at hr
      rw [hcl.2 b (by simp [snapsOf]), if_neg (by simp)] at hr
      split at hr
      · cases hr
      · rename_i hv
        split at hr
        · rename_i c1 h1
          obtain ⟨k2, k3, k1⟩ := shape_addS h h1
          have hc1 : Clean j l := ⟨fun x hx => hcl.1 x (by simpa [accsOf] using hx), fun x hx => hcl.2 x (by simp [snapsOf, hx])⟩
          have fin : ∀ {s' u' d' e'}, Shape c1 s' u' d' e' → c'.first = c.first ∧ c'.last = c.last ∧ (∃ s u d e, Shape c' s u d e) ∧ Accts c' (accs ++ accsOf (.snap b :: l)) ∧
              From c' (sn ++ snapsOf (.snap b :: l)) ∧ c'.isDone = true ∧
              (j.verified = false → (∀ x ∈ accsOf (.snap b :: l), j.okA x = true) ∧ ∀ x ∈ snapsOf (.snap b :: l), j.okS x = true) := by
            intro s' u' d' e' hsh
            obtain ⟨r1, r2, r3, r4, r5, r6, r7⟩ := ih hsh (accts_addS hA h.ne h1) (from_addS hF h.slots h1) hc1 hr
            refine ⟨r1.trans k2, r2.trans k3, r3, by simpa [accsOf] using r4, by simpa [snapsOf] using r5, r6, fun hver => ⟨fun x hx => ?_, fun x hx => ?_⟩⟩
            · exact (r7 hver).1 x (by simpa [accsOf] using hx)
            · simp only [snapsOf, List.mem_cons] at hx
              rcases hx with rfl | hx
              · rw [hver] at hv
                simpa using hv
              · exact (r7 hver).2 x hx
          rcases k1 with ⟨-, k1⟩ | ⟨-, k1⟩
          · exact fin k1
          · exact fin k1
        · cases hr

theorem slots_full {l : List Slot} {d : List SBlk} (h : l.map (·.snap) = d.map some) : l = ((l.map (·.accs)).zip d).map (fun x => ⟨x.1, some x.2⟩) := by
  induction l generalizing d with
  | nil => rfl
  | cons t l ih =>
    cases d with
    | nil => simp at h
    | cons x d =>
      simp only [List.map_cons, List.cons.injEq] at h
      obtain ⟨ta, ts⟩ := t
      simp only at h
      rw [List.map_cons, List.zip_cons_cons, List.map_cons, ← ih h.2, h.1]

/-- **C84.** A chunk that is read from a file without black-listed blocks is whole: its snapshot blocks lead from the block before to the last block, by height and hash;
they are blocks of the file; its account blocks are those of the file, in order, and follow one another for every account; and all of them were verified if they had not been before. -/
theorem read_whole_partial {j : Judge} {first last : Nat × Nat} {l : List Frame} {c : Chunk} (hlt : first.1 < last.1) (hcl : Clean j l) (h : readChunk j (newChunk first last) l = .chunk c) :
    ∃ s : List (List ABlk × SBlk), c.slots = s.map (fun x => ⟨x.1, some x.2⟩) ∧ LinkedS first (s.map (·.2)) last ∧ s.flatMap (·.1) = accsOf l ∧ (∀ x ∈ s, x.2 ∈ snapsOf l) ∧
      (∀ a, LinkedA ((accsOf l).filter (fun b => decide (b.addr = a)))) ∧
      (j.verified = false → (∀ b ∈ accsOf l, j.okA b = true) ∧ ∀ b ∈ snapsOf l, j.okS b = true) := by
  obtain ⟨h1, h2, ⟨s, u, d, e, h3⟩, h4, h5, h6, h7⟩ := read_inv l (shape_new hlt) (accts_new first last) (sn := []) (by intro t ht x hx; simp [newChunk] at ht; subst ht; cases hx) hcl h
  simp only [List.nil_append] at h4 h5
  have h1' : c.first = first := h1
  have h2' : c.last = last := h2
  unfold Chunk.isDone at h6
  rw [h3.slots, getLastD_snoc] at h6
  cases hu : u.snap with
  | none => rw [hu] at h6; cases h6
  | some x =>
    rw [hu, decide_eq_true_eq, h2'] at h6
    obtain ⟨f1, f2, f3⟩ := h3.full x hu
    have hmap : c.slots.map (·.snap) = (d ++ [x]).map some := by
      rw [h3.slots, List.map_append, List.map_append, h3.snaps]
      simp [hu]
    have hlen : c.slots.length = (d ++ [x]).length := by
      have := congrArg List.length hmap
      simpa using this
    refine ⟨(c.slots.map (·.accs)).zip (d ++ [x]), slots_full hmap, ?_, ?_, ?_, h4.linked, h7⟩
    · rw [List.map_snd_zip (by rw [List.length_map, hlen]), ← h1']
      refine h3.linked.append ⟨f2, f3, ?_⟩
      exact Prod.ext h6.2.symm h6.1.symm
    · rw [← h4.all]
      have : ((c.slots.map (·.accs)).zip (d ++ [x])).flatMap (·.1) = (c.slots.map (·.accs)).flatten := by
        rw [List.flatMap_def]
        show (((c.slots.map (·.accs)).zip (d ++ [x])).map Prod.fst).flatten = _
        rw [List.map_fst_zip (by rw [List.length_map, hlen])]
      rw [this, List.flatMap_def]
    · intro y hy
      have hm : (⟨y.1, some y.2⟩ : Slot) ∈ c.slots := by
        rw [slots_full hmap]
        exact List.mem_map.mpr ⟨y, hy, rfl⟩
      exact h5 _ hm y.2 rfl

/-! ## What goes wrong -/

/-- What is read of the frames before. -/
def feed (j : Judge) : Chunk → List Frame → Option Chunk
  | c, [] => some c
  | c, .acc b :: l => if j.black b.hash then none else if !j.verified && !j.okA b then none else (c.addA b).bind (fun c => feed j c l)
  | c, .snap b :: l => if j.black b.hash then none else if !j.verified && !j.okS b then none else (c.addS b).bind (fun c => feed j c l)
  | _, _ :: _ => none

/-- **C84, fails.** At a block of the black list reading ends, and what was read until then counts as the whole chunk, whatever follows. -/
theorem black_cuts {j : Judge} {c c' : Chunk} {l rest : List Frame} (hf : feed j c l = some c') {f : Frame}
    (hb : (∃ b, f = .snap b ∧ j.black b.hash = true) ∨ ∃ b, f = .acc b ∧ j.black b.hash = true) : readChunk j c (l ++ f :: rest) = .chunk c' := by
  induction l generalizing c with
  | nil =>
    simp only [feed, Option.some.injEq] at hf
    subst hf
    rcases hb with ⟨b, rfl, hb⟩ | ⟨b, rfl, hb⟩
    · rw [List.nil_append, readChunk, if_pos hb]
    · rw [List.nil_append, readChunk, if_pos hb]
  | cons g l ih =>
    cases g with
    | halt => simp [feed] at hf
    | bad => simp [feed] at hf
    | acc b =>
      rw [feed] at hf
      split at hf
      · cases hf
      · rename_i h1
        split at hf
        · cases hf
        · rename_i h2
          rw [List.cons_append, readChunk, if_neg h1, if_neg h2]
          cases ha : c.addA b with
          | none => rw [ha] at hf; cases hf
          | some c1 =>
            rw [ha] at hf
            exact ih hf
    | snap b =>
      rw [feed] at hf
      split at hf
      · cases hf
      · rename_i h1
        split at hf
        · cases hf
        · rename_i h2
          rw [List.cons_append, readChunk, if_neg h1, if_neg h2]
          cases ha : c.addS b with
          | none => rw [ha] at hf; cases hf
          | some c1 =>
            rw [ha] at hf
            exact ih hf

/-- A chunk of three blocks whose second is on the black list: the first alone is given as the chunk. -/
theorem black_truncated : ∃ (j : Judge) (l : List Frame) (c : Chunk), readChunk j (newChunk (0, 0) (3, 13)) l = .chunk c ∧
    c.slots = [⟨[], some ⟨1, 11, 0⟩⟩, ⟨[], none⟩] ∧ c.last = (3, 13) :=
  ⟨⟨false, fun _ => true, fun _ => true, fun h => decide (h = 12)⟩, [.snap ⟨1, 11, 0⟩, .snap ⟨2, 12, 11⟩, .snap ⟨3, 13, 12⟩],
    ⟨[⟨[], some ⟨1, 11, 0⟩⟩, ⟨[], none⟩], (0, 0), (3, 13), [], [11]⟩, by decide +kernel, rfl, rfl⟩

/-- **C84, fails.** A file may have two last blocks: the second takes the place of the first. And account blocks that come after the last snapshot block are counted to it. -/
theorem second_end : ∃ (j : Judge) (l : List Frame) (c : Chunk), readChunk j (newChunk (0, 0) (1, 11)) l = .chunk c ∧ (∀ h, j.black h = false) ∧
    l = [.snap ⟨1, 99, 0⟩, .snap ⟨1, 11, 0⟩, .acc ⟨7, 1, 71, 0⟩] ∧ c.slots = [⟨[⟨7, 1, 71, 0⟩], some ⟨1, 11, 0⟩⟩] :=
  ⟨⟨false, fun _ => true, fun _ => true, fun _ => false⟩, [.snap ⟨1, 99, 0⟩, .snap ⟨1, 11, 0⟩, .acc ⟨7, 1, 71, 0⟩],
    ⟨[⟨[⟨7, 1, 71, 0⟩], some ⟨1, 11, 0⟩⟩], (0, 0), (1, 11), [(7, (1, 71))], [71, 11, 99]⟩, by decide +kernel, fun _ => rfl, rfl, rfl⟩

/-! ## Cases -/

def judge0 : Judge := ⟨false, fun _ => true, fun b => decide (b.height < 100), fun h => decide (h = 666)⟩
def file0 : List Frame := [.acc ⟨7, 5, 75, 74⟩, .acc ⟨8, 1, 81, 0⟩, .snap ⟨4, 14, 13⟩, .acc ⟨7, 6, 76, 75⟩, .snap ⟨5, 15, 14⟩]

example : Clean judge0 file0 := by unfold Clean; decide +kernel
example : readChunk judge0 (newChunk (3, 13) (5, 15)) file0 = .chunk ⟨[⟨[⟨7, 5, 75, 74⟩, ⟨8, 1, 81, 0⟩], some ⟨4, 14, 13⟩⟩, ⟨[⟨7, 6, 76, 75⟩], some ⟨5, 15, 14⟩⟩],
    (3, 13), (5, 15), [(7, (6, 76)), (8, (1, 81)), (7, (5, 75))], [15, 76, 14, 81, 75]⟩ := by decide +kernel
/-- A missing block, a wrong end, and a gap in an account are errors. -/
example : readChunk judge0 (newChunk (3, 13) (5, 15)) [.snap ⟨4, 14, 13⟩] = .fail := by decide +kernel
example : readChunk judge0 (newChunk (3, 13) (5, 16)) file0 = .fail := by decide +kernel
example : readChunk judge0 (newChunk (3, 13) (4, 14)) [.acc ⟨7, 5, 75, 74⟩, .acc ⟨7, 7, 77, 75⟩, .snap ⟨4, 14, 13⟩] = .fail := by decide +kernel

end Verif.Sync

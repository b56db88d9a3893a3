import Verif.Man.Model

/-! # A record is read back as it was written -/

namespace Verif.Man
open Verif.Bytes Verif.Store

/-- Sizes that fit. -/
def Tb.small (t : Tb) : Prop := t.num < 2 ^ 63 ∧ t.size < 2 ^ 63 ∧ t.imin.length < 2 ^ 32 ∧ t.imax.length < 2 ^ 32

/-- The numbers of a record fit into 63 bits, its keys are shorter than 4 GiB. -/
structure SRec.Small (r : SRec) : Prop where
  comparer : ∀ c, r.comparer = some c → c.length < 2 ^ 32
  journal : ∀ n, r.journal = some n → n < 2 ^ 63
  next : ∀ n, r.next = some n → n < 2 ^ 63
  seq : ∀ n, r.seq = some n → n < 2 ^ 63
  comps : ∀ c ∈ r.comps, c.1 < 2 ^ 63 ∧ c.2.length < 2 ^ 32
  dels : ∀ d ∈ r.dels, d.1 < 2 ^ 63 ∧ d.2 < 2 ^ 63
  adds : ∀ a ∈ r.adds, a.1 < 2 ^ 63 ∧ a.2.small

/-- What is read into a record that holds something already: fields that come are replaced, lists are
added to.  The number of the previous journal is not written. -/
def SRec.over (r s : SRec) : SRec :=
  { comparer := r.comparer.or s.comparer, journal := r.journal.or s.journal, prevJournal := s.prevJournal, next := r.next.or s.next, seq := r.seq.or s.seq,
    comps := s.comps ++ r.comps, dels := s.dels ++ r.dels, adds := s.adds ++ r.adds }

theorem read_int (n : Nat) (hn : n < 2 ^ 63) (rest : Bytes) : readInt (uvarint n ++ rest) = some (n, rest) := by
  unfold readInt
  rw [Tab.read_uvarint n hn]
  exact if_pos hn

theorem read_bytes (b : Bytes) (h : b.length < 2 ^ 32) (rest : Bytes) : readField (putBytes b ++ rest) = some (b, rest) := by
  unfold putBytes
  rw [List.append_assoc]
  exact readField_spec b rest h

/-- Some bytes that read as a change of the record. -/
def Reads (b : Bytes) (f : SRec → SRec) : Prop := ∀ r rest m, b.length + rest.length ≤ m →
  ∃ m', rest.length ≤ m' ∧ decodeLoop m r (b ++ rest) = decodeLoop m' (f r) rest

theorem reads_nil : Reads [] id := fun _ rest m hm => ⟨m, by simpa using hm, rfl⟩

theorem reads_append {a b : Bytes} {f g : SRec → SRec} (ha : Reads a f) (hb : Reads b g) : Reads (a ++ b) (g ∘ f) := by
  intro r rest m hm
  rw [List.append_assoc]
  obtain ⟨m1, h1, e1⟩ := ha r (b ++ rest) m (by rw [List.length_append] at hm ⊢; omega)
  obtain ⟨m2, h2, e2⟩ := hb (f r) rest m1 (by rw [List.length_append] at h1; omega)
  exact ⟨m2, h2, e1.trans e2⟩

theorem reads_field {b : Bytes} {f : SRec → SRec} (hb : b ≠ []) (h : ∀ r rest, decodeField r (b ++ rest) = some (f r, rest)) : Reads b f := by
  intro r rest m hm
  have hl := List.length_pos_iff.2 hb
  obtain ⟨m', rfl⟩ : ∃ m', m = m' + 1 := ⟨m - 1, by omega⟩
  refine ⟨m', by omega, ?_⟩
  show (if b ++ rest = [] then some r else (decodeField r (b ++ rest)).bind (fun x => decodeLoop m' x.1 x.2)) = _
  rw [if_neg (by intro h'; exact hb (List.append_eq_nil_iff.1 h').1), h]
  rfl

theorem reads_list {α : Type} {enc : α → Bytes} {f : α → SRec → SRec} : ∀ {l : List α}, (∀ a ∈ l, Reads (enc a) (f a)) → Reads (l.map enc).flatten (fun r => l.foldl (fun r a => f a r) r) := by
  intro l
  induction l with
  | nil => intro _; exact reads_nil
  | cons a l ih =>
    intro h
    rw [List.map_cons, List.flatten_cons]
    exact reads_append (h a List.mem_cons_self) (ih (fun x hx => h x (List.mem_cons_of_mem _ hx)))

theorem app_ne (n : Nat) (b : Bytes) : uvarint n ++ b ≠ [] := by
  intro h
  have := uvarint_ne n
  rw [(List.append_eq_nil_iff.1 h).1] at this
  exact absurd this (by simp)

theorem reads_comparer {c : Bytes} (h : c.length < 2 ^ 32) : Reads (uvarint 1 ++ putBytes c) (fun r => { r with comparer := some c }) := by
  refine reads_field (app_ne _ _) ?_
  intro r rest
  unfold decodeField
  rw [List.append_assoc, Tab.read_uvarint 1 (by decide)]
  simp only [Option.bind_eq_bind, Option.bind_some, if_true, read_bytes c h]

theorem reads_journal {n : Nat} (h : n < 2 ^ 63) : Reads (uvarint 2 ++ uvarint n) (fun r => { r with journal := some n }) := by
  refine reads_field (app_ne _ _) ?_
  intro r rest
  unfold decodeField
  rw [List.append_assoc, Tab.read_uvarint 2 (by decide)]
  simp [read_int n h]

theorem reads_next {n : Nat} (h : n < 2 ^ 63) : Reads (uvarint 3 ++ uvarint n) (fun r => { r with next := some n }) := by
  refine reads_field (app_ne _ _) ?_
  intro r rest
  unfold decodeField
  rw [List.append_assoc, Tab.read_uvarint 3 (by decide)]
  simp [read_int n h]

theorem reads_seq {n : Nat} (h : n < 2 ^ 63) : Reads (uvarint 4 ++ uvarint n) (fun r => { r with seq := some n }) := by
  refine reads_field (app_ne _ _) ?_
  intro r rest
  unfold decodeField
  rw [List.append_assoc, Tab.read_uvarint 4 (by decide)]
  simp [Tab.read_uvarint n h]

theorem reads_comp {c : Nat × Bytes} (h : c.1 < 2 ^ 63 ∧ c.2.length < 2 ^ 32) :
    Reads (uvarint 5 ++ (uvarint c.1 ++ putBytes c.2)) (fun r => { r with comps := r.comps ++ [c] }) := by
  refine reads_field (app_ne _ _) ?_
  intro r rest
  unfold decodeField
  rw [List.append_assoc, Tab.read_uvarint 5 (by decide)]
  simp [List.append_assoc, Tab.read_uvarint _ h.1, read_bytes _ h.2]

theorem reads_del {d : Nat × Nat} (h : d.1 < 2 ^ 63 ∧ d.2 < 2 ^ 63) :
    Reads (uvarint 6 ++ (uvarint d.1 ++ uvarint d.2)) (fun r => { r with dels := r.dels ++ [d] }) := by
  refine reads_field (app_ne _ _) ?_
  intro r rest
  unfold decodeField
  rw [List.append_assoc, Tab.read_uvarint 6 (by decide)]
  simp [List.append_assoc, Tab.read_uvarint _ h.1, read_int _ h.2]

theorem reads_add {a : Nat × Tb} (h : a.1 < 2 ^ 63 ∧ a.2.small) :
    Reads (uvarint 7 ++ (uvarint a.1 ++ (uvarint a.2.num ++ (uvarint a.2.size ++ (putBytes a.2.imin ++ putBytes a.2.imax))))) (fun r => { r with adds := r.adds ++ [a] }) := by
  refine reads_field (app_ne _ _) ?_
  intro r rest
  obtain ⟨h0, h1, h2, h3, h4⟩ := h
  unfold decodeField
  rw [List.append_assoc, Tab.read_uvarint 7 (by decide)]
  simp [List.append_assoc, Tab.read_uvarint _ h0, read_int _ h1, read_int _ h2, read_bytes _ h3, read_bytes _ h4]

theorem reads_opt {α : Type} {o : Option α} {enc : α → Bytes} {f : α → SRec → SRec} (h : ∀ a, o = some a → Reads (enc a) (f a)) :
    Reads ((o.map enc).getD []) ((o.map f).getD id) := by
  cases o with
  | none => exact reads_nil
  | some a => exact h a rfl

theorem fold_comps (l : List (Nat × Bytes)) : ∀ r : SRec, l.foldl (fun r a => { r with comps := r.comps ++ [a] }) r = { r with comps := r.comps ++ l } := by
  induction l with
  | nil => intro r; rw [List.append_nil]; rfl
  | cons a l ih => intro r; rw [List.foldl_cons, ih]; simp

theorem fold_dels (l : List (Nat × Nat)) : ∀ r : SRec, l.foldl (fun r a => { r with dels := r.dels ++ [a] }) r = { r with dels := r.dels ++ l } := by
  induction l with
  | nil => intro r; rw [List.append_nil]; rfl
  | cons a l ih => intro r; rw [List.foldl_cons, ih]; simp

theorem fold_adds (l : List (Nat × Tb)) : ∀ r : SRec, l.foldl (fun r a => { r with adds := r.adds ++ [a] }) r = { r with adds := r.adds ++ l } := by
  induction l with
  | nil => intro r; rw [List.append_nil]; rfl
  | cons a l ih => intro r; rw [List.foldl_cons, ih]; simp

/-- **A record is read back as it was written**, into whatever was read before. -/
theorem record_round_trip {r : SRec} (h : r.Small) (s : SRec) : decode s r.encode = some (r.over s) := by
  have hR := reads_append (reads_append (reads_append (reads_append (reads_append (reads_append
    (reads_opt (o := r.comparer) (fun c hc => reads_comparer (h.comparer c hc)))
    (reads_opt (o := r.journal) (fun c hc => reads_journal (h.journal c hc))))
    (reads_opt (o := r.next) (fun c hc => reads_next (h.next c hc))))
    (reads_opt (o := r.seq) (fun c hc => reads_seq (h.seq c hc))))
    (reads_list (l := r.comps) (fun c hc => reads_comp (h.comps c hc))))
    (reads_list (l := r.dels) (fun c hc => reads_del (h.dels c hc))))
    (reads_list (l := r.adds) (fun c hc => reads_add (h.adds c hc)))
  obtain ⟨m', _, e⟩ := hR s [] r.encode.length (by rw [List.length_nil, Nat.add_zero]; exact Nat.le_refl _)
  rw [List.append_nil] at e
  unfold decode
  refine Eq.trans e ?_
  have hnil : ∀ (m : Nat) (x : SRec), decodeLoop m x [] = some x := by intro m x; cases m <;> rfl
  rw [hnil]
  congr 1
  simp only [Function.comp]
  rw [fold_adds, fold_dels, fold_comps]
  obtain ⟨c, j, pj, n, q, cs, ds, as⟩ := r
  cases c <;> cases j <;> cases n <;> cases q <;> rfl

end Verif.Man

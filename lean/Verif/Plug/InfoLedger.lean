import Verif.Plug.InfoLemmas

/-!
# What is on the road: entries of valid ledgers -/

namespace Verif.Plug

theorem Valid.perm {L M : List Blk} (h : Valid L) (p : L.Perm M) : Valid M := by
  have ps : (L.flatMap Blk.sends).Perm (M.flatMap Blk.sends) := p.flatMap_right _
  refine ⟨(p.map _).nodup_iff.1 h.hashes, (ps.map _).nodup_iff.1 h.sends, (p.filterMap _).nodup_iff.1 h.srcs, ?_, fun b hb => h.lists b (p.mem_iff.2 hb), fun b hb => h.later b (p.mem_iff.2 hb)⟩
  intro b hb k hk
  obtain ⟨s, hs, e⟩ := h.found b (p.mem_iff.2 hb) k hk
  exact ⟨s, ps.mem_iff.1 hs, e⟩

/-- The entries of the receives. -/
def inns (L : List Blk) : List Ent := L.filterMap fun b => b.src.map (Ent.inn b.addr)

/-- The entries are those of the sends and those of the receives. -/
theorem ents_perm : ∀ {L : List Blk}, (∀ b ∈ L, b.inner ≠ [] → b.contract = true ∧ b.src ≠ none) → (L.flatMap Blk.ents).Perm ((L.flatMap Blk.sends).map .out ++ inns L) := by
  intro L
  induction L with
  | nil => intro _; exact List.Perm.refl _
  | cons b L ih =>
    intro h
    have hb := h b (by simp)
    have ih := ih (fun x hx => h x (List.mem_cons_of_mem _ hx))
    rw [List.flatMap_cons, List.flatMap_cons, List.map_append]
    have hin : inns (b :: L) = (b.src.map (Ent.inn b.addr)).toList ++ inns L := by
      unfold inns
      rw [List.filterMap_cons]
      cases b.src <;> rfl
    have h1 : b.ents.Perm (b.sends.map .out ++ (b.src.map (Ent.inn b.addr)).toList) := by
      unfold Blk.ents Blk.sends Blk.src at *
      cases hk : b.kind with
      | send d t a =>
        rw [hk] at hb
        by_cases hi : b.inner = []
        · simp [hi]
        · exact absurd rfl (hb hi).2
      | genesis =>
        rw [hk] at hb
        by_cases hi : b.inner = []
        · simp [hi]
        · exact absurd rfl (hb hi).2
      | recv k =>
        by_cases hi : b.inner = []
        · simp [hi]
        · simp only [(hb hi).1, if_true, List.nil_append]
          exact (List.perm_append_singleton _ _).symm
    rw [hin]
    refine (h1.append ih).trans ?_
    rw [List.append_assoc, List.append_assoc]
    refine List.Perm.append_left _ ?_
    rw [← List.append_assoc, ← List.append_assoc]
    exact List.Perm.append_right _ List.perm_append_comm

theorem lookIn_mem {B : List Blk} (hB : Valid B) {s : Send} (hs : s ∈ B.flatMap Blk.sends) : lookIn B s.hash = some s := by
  unfold lookIn
  have hn := hB.sends
  generalize B.flatMap Blk.sends = l at hs hn
  induction l with
  | nil => cases hs
  | cons x l ih =>
    rw [List.map_cons, List.nodup_cons] at hn
    rw [List.find?_cons]
    rcases List.mem_cons.1 hs with rfl | hs
    · simp
    · have : x.hash ≠ s.hash := fun e => hn.1 (List.mem_map.2 ⟨s, hs, e.symm⟩)
      simp only [this, decide_false]
      exact ih hs hn.2

/-- Looking up knows the sends of a ledger. -/
def Knows (look : Nat → Option Send) (L : List Blk) : Prop := ∀ s ∈ L.flatMap Blk.sends, look s.hash = some s

theorem knows_lookIn {B L : List Blk} (hB : Valid B) (h : ∀ b ∈ L, b ∈ B) : Knows (lookIn B) L := by
  intro s hs
  obtain ⟨b, hb, hs⟩ := List.mem_flatMap.1 hs
  exact lookIn_mem hB (List.mem_flatMap.2 ⟨b, h b hb, hs⟩)

theorem mem_inns {L : List Blk} {a h : Nat} : Ent.inn a h ∈ inns L ↔ ∃ b ∈ L, b.src = some h ∧ b.addr = a := by
  unfold inns
  rw [List.mem_filterMap]
  constructor
  · rintro ⟨b, hb, e⟩
    cases hk : b.src with
    | none => rw [hk] at e; cases e
    | some k =>
      rw [hk] at e
      simp only [Option.map_some, Option.some.injEq, Ent.inn.injEq] at e
      exact ⟨b, hb, by rw [← e.2, hk], e.1⟩
  · rintro ⟨b, hb, e, rfl⟩
    exact ⟨b, hb, by rw [e]; rfl⟩

theorem out_mem_ents {L : List Blk} (hL : Valid L) {s : Send} : Ent.out s ∈ L.flatMap Blk.ents ↔ s ∈ L.flatMap Blk.sends := by
  rw [(ents_perm hL.lists).mem_iff, List.mem_append]
  constructor
  · rintro (h | h)
    · obtain ⟨x, hx, e⟩ := List.mem_map.1 h
      cases e
      exact hx
    · unfold inns at h
      obtain ⟨b, -, e⟩ := List.mem_filterMap.1 h
      cases hk : b.src <;> rw [hk] at e <;> cases e
  · exact fun h => Or.inl (List.mem_map.2 ⟨s, h, rfl⟩)

theorem inn_mem_ents {L : List Blk} (hL : Valid L) {a h : Nat} : Ent.inn a h ∈ L.flatMap Blk.ents ↔ ∃ b ∈ L, b.src = some h ∧ b.addr = a := by
  rw [(ents_perm hL.lists).mem_iff, List.mem_append, mem_inns]
  constructor
  · rintro (h | h)
    · obtain ⟨x, -, e⟩ := List.mem_map.1 h
      cases e
    · exact h
  · exact Or.inr

theorem src_unique {L : List Blk} (hL : (L.filterMap Blk.src).Nodup) {b c : Blk} (hb : b ∈ L) (hc : c ∈ L) {h : Nat} (h1 : b.src = some h) (h2 : c.src = some h) : b = c := by
  induction L with
  | nil => cases hb
  | cons x L ih =>
    have hL' : (L.filterMap Blk.src).Nodup := hL.sublist ((List.sublist_cons_self x L).filterMap _)
    have key : ∀ y ∈ L, x.src = some h → y.src ≠ some h := by
      intro y hy hx hy'
      rw [List.filterMap_cons, hx] at hL
      exact (List.nodup_cons.1 hL).1 (List.mem_filterMap.2 ⟨y, hy, hy'⟩)
    rcases List.mem_cons.1 hb with e | hb <;> rcases List.mem_cons.1 hc with e' | hc
    · rw [e, e']
    · rw [e] at h1; exact absurd h2 (key c hc h1)
    · rw [e'] at h2; exact absurd h1 (key b hb h2)
    · exact ih hL' hb hc

theorem send_unique {L : List Blk} (hL : Valid L) {s r : Send} (hs : s ∈ L.flatMap Blk.sends) (hr : r ∈ L.flatMap Blk.sends) (e : s.hash = r.hash) : s = r := by
  have h1 := lookIn_mem hL hs
  have h2 := lookIn_mem hL hr
  rw [e, h2] at h1
  exact (Option.some.inj h1).symm

theorem ents_fit {L : List Blk} (hL : Valid L) {look : Nat → Option Send} (hk : Knows look L) : Fit look (L.flatMap Blk.ents) := by
  refine ⟨?_, ?_, ?_, ?_, ?_⟩
  · rw [(ents_perm hL.lists).nodup_iff, List.nodup_append]
    refine ⟨?_, ?_, ?_⟩
    · have : (L.flatMap Blk.sends).Nodup := hL.sends.of_map _
      exact this.map (fun x y e => by cases e; rfl)
    · have h := hL.srcs
      have e : (inns L).map Ent.key = L.filterMap Blk.src := by
        unfold inns
        rw [List.map_filterMap]
        congr 1
        funext b
        cases b.src <;> rfl
      rw [← e] at h
      exact h.of_map _
    · intro x hx y hy hxy
      obtain ⟨s, -, rfl⟩ := List.mem_map.1 hx
      subst hxy
      unfold inns at hy
      obtain ⟨b, -, e⟩ := List.mem_filterMap.1 hy
      cases hk : b.src <;> rw [hk] at e <;> cases e
  · intro s r hs hr e
    exact send_unique hL ((out_mem_ents hL).1 hs) ((out_mem_ents hL).1 hr) e
  · intro a a' h h1 h2
    obtain ⟨b, hb, e1, rfl⟩ := (inn_mem_ents hL).1 h1
    obtain ⟨c, hc, e2, rfl⟩ := (inn_mem_ents hL).1 h2
    rw [src_unique hL.srcs hb hc e1 e2]
  · intro s a h h1 h2 e
    obtain ⟨b, hb, e1, rfl⟩ := (inn_mem_ents hL).1 h2
    obtain ⟨r, hr, e2, e3⟩ := hL.found b hb h e1
    rw [send_unique hL ((out_mem_ents hL).1 h1) hr (e.trans e2.symm), e3]
  · intro s hs
    exact hk s ((out_mem_ents hL).1 hs)

theorem sum_filter_split {α : Type} (p : α → Bool) (f : α → Int) (l : List α) : (l.map f).sum = ((l.filter p).map f).sum + ((l.filter fun x => !p x).map f).sum := by
  induction l with
  | nil => rfl
  | cons x l ih =>
    cases hp : p x
    · rw [List.filter_cons_of_neg (by simp [hp]), List.filter_cons_of_pos (by simp [hp]), List.map_cons, List.map_cons, List.sum_cons, List.sum_cons, ih]
      omega
    · rw [List.filter_cons_of_pos hp, List.filter_cons_of_neg (by simp [hp]), List.map_cons, List.map_cons, List.sum_cons, List.sum_cons, ih]
      omega

theorem sum_if {α : Type} (p : α → Bool) (f : α → Int) (l : List α) : (l.map fun x => if p x then f x else 0).sum = ((l.filter p).map f).sum := by
  induction l with
  | nil => rfl
  | cons x l ih =>
    cases hp : p x
    · rw [List.filter_cons_of_neg (by simp [hp]), List.map_cons, List.sum_cons, ih]; simp [hp]
    · rw [List.filter_cons_of_pos hp, List.map_cons, List.map_cons, List.sum_cons, List.sum_cons, ih]; simp [hp]

/-- The entries of a valid ledger add up to what waits. -/
theorem net_ents {L : List Blk} (hL : Valid L) {look : Nat → Option Send} (hk : Knows look L) (w : Send → Int) (a t : Nat) : net w look a t (L.flatMap Blk.ents) = ((waiting L a t).map w).sum := by
  rw [net_perm (ents_perm hL.lists), net_append]
  have e1 : net w look a t ((L.flatMap Blk.sends).map .out) = ((L.flatMap Blk.sends).map fun s => if s.dest = a ∧ s.token = t then w s else 0).sum := by
    unfold net
    rw [List.map_map]
    rfl
  have e2 : net w look a t (inns L) = -(((L.filterMap Blk.src).filterMap look).map fun s => if s.dest = a ∧ s.token = t then w s else 0).sum := by
    have hf := hL.found
    have : ∀ M : List Blk, (∀ b ∈ M, b ∈ L) → net w look a t (inns M) = -(((M.filterMap Blk.src).filterMap look).map fun s => if s.dest = a ∧ s.token = t then w s else 0).sum := by
      intro M
      induction M with
      | nil => intro _; rfl
      | cons b M ih =>
        intro hM
        have ih := ih (fun x hx => hM x (List.mem_cons_of_mem _ hx))
        have hb := hM b (by simp)
        cases hs : b.src with
        | none =>
          have : inns (b :: M) = inns M := by unfold inns; rw [List.filterMap_cons, hs]; rfl
          rw [this, List.filterMap_cons, hs, ih]
        | some h =>
          obtain ⟨s, hs1, hs2, hs3⟩ := hf b hb h hs
          have hl := hk s hs1
          rw [hs2] at hl
          have : inns (b :: M) = .inn b.addr h :: inns M := by unfold inns; rw [List.filterMap_cons, hs]; rfl
          rw [this, List.filterMap_cons, hs]
          dsimp only
          rw [List.filterMap_cons, hl]
          unfold net at ih ⊢
          rw [List.map_cons, List.sum_cons, ih]
          simp only [val, hl, List.map_cons, List.sum_cons, hs3]
          split_ifs <;> omega
    exact this L (fun b hb => hb)
  have hp : ((L.filterMap Blk.src).filterMap look).Perm ((L.flatMap Blk.sends).filter fun s => (L.filterMap Blk.src).contains s.hash) := by
    have hns : (L.flatMap Blk.sends).Nodup := hL.sends.of_map _
    rw [List.perm_ext_iff_of_nodup ?_ (hns.filter _)]
    · intro s
      rw [List.mem_filterMap, List.mem_filter]
      constructor
      · rintro ⟨h, hh, e⟩
        obtain ⟨b, hb, e1⟩ := List.mem_filterMap.1 hh
        obtain ⟨r, hr, e2, -⟩ := hL.found b hb h e1
        have := hk r hr
        rw [e2, e] at this
        cases this
        exact ⟨hr, by rw [e2]; simpa using ⟨b, hb, e1⟩⟩
      · rintro ⟨hs, hc⟩
        exact ⟨s.hash, by simpa using hc, hk s hs⟩
    · have hn := hL.srcs
      have hin : ∀ h ∈ L.filterMap Blk.src, ∃ s, look h = some s ∧ s.hash = h := by
        intro h hh
        obtain ⟨b, hb, e1⟩ := List.mem_filterMap.1 hh
        obtain ⟨r, hr, e2, -⟩ := hL.found b hb h e1
        exact ⟨r, by rw [← e2]; exact hk r hr, e2⟩
      generalize L.filterMap Blk.src = l at hn hin
      induction l with
      | nil => simp
      | cons h l ih =>
        rw [List.nodup_cons] at hn
        obtain ⟨s, h1, h2⟩ := hin h (by simp)
        rw [List.filterMap_cons, h1]
        refine List.nodup_cons.2 ⟨fun hm => ?_, ih hn.2 (fun x hx => hin x (List.mem_cons_of_mem _ hx))⟩
        obtain ⟨k, hk, e⟩ := List.mem_filterMap.1 hm
        obtain ⟨r, e1, e2⟩ := hin k (List.mem_cons_of_mem _ hk)
        rw [e] at e1
        cases e1
        rw [← h2, e2] at hn
        exact hn.1 hk
  rw [e1, e2, (hp.map _).sum_eq, sum_filter_split (fun s => (L.filterMap Blk.src).contains s.hash) _ (L.flatMap Blk.sends)]
  have e3 := sum_if (fun s : Send => decide (s.dest = a) && decide (s.token = t)) w ((L.flatMap Blk.sends).filter fun s => !(L.filterMap Blk.src).contains s.hash)
  rw [List.filter_filter] at e3
  simp only [Bool.and_eq_true, decide_eq_true_eq] at e3
  unfold waiting
  rw [e3]
  omega

theorem sum_ones {α : Type} (l : List α) : (l.map fun _ => (1 : Int)).sum = l.length := by
  induction l with
  | nil => rfl
  | cons x l ih => rw [List.map_cons, List.sum_cons, ih, List.length_cons]; omega

theorem sum_amounts (l : List Send) : (l.map fun s => (s.amount : Int)).sum = ((l.map (·.amount)).sum : Nat) := by
  induction l with
  | nil => rfl
  | cons x l ih => rw [List.map_cons, List.sum_cons, ih, List.map_cons, List.sum_cons]; omega

theorem cut_spec {look : Nat → Option Send} {bs : List Blk} (hf : Fit look (bs.flatMap Blk.ents)) (w : Send → Int) (a t : Nat) :
    net w look a t (cut bs) = net w look a t (bs.flatMap Blk.ents) ∧ (∀ e ∈ cut bs, e ∈ bs.flatMap Blk.ents) := by
  have := cut_net (look := look) w a t (bs.flatMap Blk.ents) [] [] (by simpa using hf) (by simp) (by simp) rfl
  rw [List.nil_append] at this
  exact this

/-- Blocks that come to a valid ledger, or go, leave the store exact. -/
theorem flush_blocks {look : Nat → Option Send} {L bs : List Blk} (hL : Valid L) (hLb : Valid (L ++ bs)) (hk : Knows look (L ++ bs)) {db : Nat → Nat → Option Meta} :
    ((∀ a t, db a t = metaOf (waiting L a t)) → ∀ a t, flush look 1 (cut bs) db a t = metaOf (waiting (L ++ bs) a t)) ∧
    ((∀ a t, db a t = metaOf (waiting (L ++ bs) a t)) → ∀ a t, flush look (-1) (cut bs) db a t = metaOf (waiting L a t)) := by
  have hfit := ents_fit hLb hk
  have hsub : (bs.flatMap Blk.ents).Sublist ((L ++ bs).flatMap Blk.ents) := by rw [List.flatMap_append]; exact List.sublist_append_right _ _
  have hfb := hfit.sub hsub
  have hkL : Knows look L := fun s hs => hk s (by rw [List.flatMap_append]; exact List.mem_append_left _ hs)
  have hl : ∀ b h, Ent.inn b h ∈ cut bs → look h ≠ none := by
    intro b h hm
    have := hsub.subset ((cut_spec hfb (fun _ => 1) 0 0).2 _ hm)
    obtain ⟨c, hc, e1, -⟩ := (inn_mem_ents hLb).1 this
    obtain ⟨s, hs, e2, -⟩ := hLb.found c hc h e1
    have := hk s hs
    rw [e2] at this
    rw [this]
    exact (by simp)
  have hnet : ∀ w a t, net w look a t (cut bs) = ((waiting (L ++ bs) a t).map w).sum - ((waiting L a t).map w).sum := by
    intro w a t
    rw [(cut_spec hfb w a t).1, ← net_ents hLb hk, ← net_ents hL hkL, List.flatMap_append, net_append]
    omega
  constructor
  · intro hdb
    refine flush_exact hdb hl (fun a t => ?_) (fun a t => ?_)
    · rw [hnet, sum_ones, sum_ones]; omega
    · rw [hnet, sum_amounts, sum_amounts]; omega
  · intro hdb
    refine flush_exact hdb hl (fun a t => ?_) (fun a t => ?_)
    · rw [hnet, sum_ones, sum_ones]; omega
    · rw [hnet, sum_amounts, sum_amounts]; omega

end Verif.Plug

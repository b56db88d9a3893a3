import Verif.State.DbTarget

/-! The redo logs: what is kept of them, and that splitting, cutting and querying them gives the logs of the right blocks. -/

namespace Verif.State
open Verif.Bytes

/-! ### Tables -/

theorem get_filter {K V : Type} [DecidableEq K] (p : K → Bool) (t : Table K V) (k : K) :
    Table.get k (t.filter (fun e => p e.1)) = if p k = true then Table.get k t else none := by
  induction t with
  | nil => simp [Table.get]
  | cons x t ih =>
    rw [List.filter_cons]
    by_cases hp : p x.1 = true
    · rw [if_pos hp]
      simp only [Table.get]
      rw [ih]
      by_cases hx : x.1 = k
      · subst hx; simp [hp]
      · simp [hx]
    · rw [if_neg hp, ih]
      simp only [Table.get]
      by_cases hx : x.1 = k
      · subst hx; simp [hp]
      · simp [hx]

theorem proper_filter {K V : Type} [DecidableEq K] (p : K × V → Bool) {t : Table K V} (h : t.Proper) : Table.Proper (t.filter p) := by
  unfold Table.Proper at *
  exact h.sublist (List.Sublist.map _ List.filter_sublist)

theorem get_rm {K V : Type} [DecidableEq K] (x k : K) (t : Table K V) : Table.get k (rm x t) = if k = x then none else Table.get k t := by
  unfold rm
  rw [get_filter (fun k => decide (k ≠ x))]
  by_cases h : k = x <;> simp [h]

theorem proper_rm {K V : Type} [DecidableEq K] (x : K) {t : Table K V} (h : t.Proper) : (rm x t).Proper := proper_filter _ h

/-- A table that has all keys of an interval is at least as long. -/
theorem length_of_run {V : Type} {t : Table Nat V} {a n : Nat} (h : ∀ j, a ≤ j → j ≤ n → (Table.get j t).isSome) : n + 1 - a ≤ t.length := by
  have hs : List.range' a (n + 1 - a) ⊆ t.map (·.1) := by
    intro j hj
    rw [List.mem_range'] at hj
    obtain ⟨i, hi, rfl⟩ := hj
    have := h (a + 1 * i) (by omega) (by omega)
    rw [Option.isSome_iff_exists] at this
    obtain ⟨v, hv⟩ := this
    exact List.mem_map.mpr ⟨_, Table.get_mem hv, rfl⟩
  have := (List.nodup_range' (s := a) (n := n + 1 - a) 1).length_le_of_subset hs
  simpa using this

/-! ### Splitting -/

theorem dropWhile_split {A : Type} {q : A → Bool} {l₁ l₂ : List A} (h2 : ∀ x ∈ l₂, q x = true) (h1 : ∀ x ∈ l₁, q x = false) :
    (l₁ ++ l₂).reverse.dropWhile q = l₁.reverse := by
  rw [List.reverse_append, List.dropWhile_append_of_pos (fun x hx => h2 x (List.mem_reverse.mp hx))]
  cases hr : l₁.reverse with
  | nil => rfl
  | cons x xs =>
    rw [List.dropWhile_cons_of_neg]
    rw [h1 x (List.mem_reverse.mp (by rw [hr]; exact List.mem_cons_self))]
    simp

/-- The blocks of each account are in the order of their heights. -/
def Rising (bs : List Blk) : Prop := ∀ a, ((bs.filter (fun b => decide (b.addr = a))).map (·.height)).Pairwise (· < ·)

theorem mem_filter_addr {bs : List Blk} {a : Addr} {b : Blk} : b ∈ bs.filter (fun b => decide (b.addr = a)) ↔ b ∈ bs ∧ b.addr = a := by
  rw [List.mem_filter]; simp

theorem Rising.lt {bs cs ds : List Blk} {a : Addr} (h : Rising bs)
    (hf : bs.filter (fun b => decide (b.addr = a)) = cs.filter (fun b => decide (b.addr = a)) ++ ds.filter (fun b => decide (b.addr = a)))
    {c d : Blk} (hc : c ∈ cs) (hca : c.addr = a) (hd : d ∈ ds) (hda : d.addr = a) : c.height < d.height := by
  have := h a
  rw [hf, List.map_append, List.pairwise_append] at this
  exact this.2.2 _ (List.mem_map.mpr ⟨c, mem_filter_addr.mpr ⟨hc, hca⟩, rfl⟩) _ (List.mem_map.mpr ⟨d, mem_filter_addr.mpr ⟨hd, hda⟩, rfl⟩)

theorem itemsOf_split {bs cs ds : List Blk} {a : Addr}
    (hf : bs.filter (fun b => decide (b.addr = a)) = cs.filter (fun b => decide (b.addr = a)) ++ ds.filter (fun b => decide (b.addr = a))) :
    itemsOf bs a = itemsOf cs a ++ itemsOf ds a := by
  unfold itemsOf; rw [hf, List.map_append]

/-- In a rising list split for one account, a confirmed block that is the last of its account gives the number of confirmed items. -/
theorem splitAt_eq {bs cs ds : List Blk} {b : Blk} (h : Rising bs)
    (hf : bs.filter (fun c => decide (c.addr = b.addr)) = cs.filter (fun c => decide (c.addr = b.addr)) ++ ds.filter (fun c => decide (c.addr = b.addr)))
    (hb : b ∈ cs) (hlast : ∀ c ∈ cs, c.addr = b.addr → c.height ≤ b.height) :
    splitAt (itemsOf bs b.addr) b.height = (itemsOf cs b.addr).length := by
  unfold splitAt
  rw [itemsOf_split hf, dropWhile_split, List.length_reverse]
  · intro i hi
    obtain ⟨d, hd, hda, rfl⟩ := mem_itemsOf.mp hi
    simp only [decide_eq_true_eq]
    exact h.lt hf hb rfl hd hda
  · intro i hi
    obtain ⟨c, hc, hca, rfl⟩ := mem_itemsOf.mp hi
    exact decide_eq_false (Nat.not_lt.mpr (hlast c hc hca))

theorem splitLog_spec {bs cs ds : List Blk} (h : Rising bs)
    (hf : ∀ a, bs.filter (fun c => decide (c.addr = a)) = cs.filter (fun c => decide (c.addr = a)) ++ ds.filter (fun c => decide (c.addr = a)))
    (todo fin : List Blk) (hcs : cs = todo.reverse ++ fin) (this next : SnapLog)
    (ht : this.Proper) (hn : next.Proper)
    (hthis : ∀ a, (this.get a).isSome ↔ ∃ c ∈ fin, c.addr = a)
    (hfin : ∀ a, (∃ c ∈ fin, c.addr = a) → this.get a = some (itemsOf cs a) ∧ (next.get a).getD [] = itemsOf ds a)
    (hnot : ∀ a, (¬ ∃ c ∈ fin, c.addr = a) → (next.get a).getD [] = itemsOf bs a) :
    ∃ this' next', splitLog todo this next = some (this', next') ∧ LogOk this' cs ∧ LogOk next' ds := by
  induction todo generalizing fin this next with
  | nil =>
    refine ⟨this, next, rfl, ⟨ht, ?_⟩, ⟨hn, ?_⟩⟩
    · intro a
      by_cases hc : ∃ c ∈ fin, c.addr = a
      · rw [(hfin a hc).1]; rfl
      · have h1 : this.get a = none := by
          cases hx : this.get a with
          | none => rfl
          | some l => exact absurd ((hthis a).mp (by rw [hx]; rfl)) hc
        rw [h1]
        unfold itemsOf
        have : cs.filter (fun c => decide (c.addr = a)) = [] := by
          rw [List.filter_eq_nil_iff]
          intro c hcm
          simp only [decide_eq_true_eq]
          rw [hcs] at hcm
          intro hca
          exact hc ⟨c, by simpa using hcm, hca⟩
        rw [this]; rfl
    · intro a
      by_cases hc : ∃ c ∈ fin, c.addr = a
      · exact (hfin a hc).2
      · rw [hnot a hc, itemsOf_split (hf a)]
        have : itemsOf cs a = [] := by
          unfold itemsOf
          have : cs.filter (fun c => decide (c.addr = a)) = [] := by
            rw [List.filter_eq_nil_iff]
            intro c hcm
            simp only [decide_eq_true_eq]
            rw [hcs] at hcm
            intro hca
            exact hc ⟨c, by simpa using hcm, hca⟩
          rw [this]; rfl
        rw [this]; rfl
  | cons b todo ih =>
    have hcs' : cs = todo.reverse ++ (b :: fin) := by rw [hcs]; simp
    unfold splitLog
    by_cases hb : (this.get b.addr).isSome
    · rw [if_pos hb]
      have hbf := (hthis b.addr).mp hb
      have hiff : ∀ a, (∃ c ∈ b :: fin, c.addr = a) ↔ ∃ c ∈ fin, c.addr = a := by
        intro a
        constructor
        · rintro ⟨c, hc, rfl⟩
          rcases List.mem_cons.mp hc with rfl | hc
          · exact hbf
          · exact ⟨c, hc, rfl⟩
        · rintro ⟨c, hc, e⟩; exact ⟨c, List.mem_cons_of_mem _ hc, e⟩
      exact ih (b :: fin) hcs' this next ht hn (fun a => by rw [hiff]; exact hthis a) (fun a ha => hfin a ((hiff a).mp ha))
        (fun a ha => hnot a (fun q => ha ((hiff a).mpr q)))
    · rw [if_neg hb]
      have hbf : ¬ ∃ c ∈ fin, c.addr = b.addr := fun q => hb ((hthis b.addr).mpr q)
      have hbcs : b ∈ cs := by rw [hcs']; simp
      have hitems := hnot b.addr hbf
      have hsplit := itemsOf_split (hf b.addr)
      have hne : itemsOf cs b.addr ≠ [] := by
        intro q
        have : b.item ∈ itemsOf cs b.addr := mem_itemsOf.mpr ⟨b, hbcs, rfl, rfl⟩
        rw [q] at this; simp at this
      cases hg : next.get b.addr with
      | none =>
        rw [hg, hsplit] at hitems
        simp only [Option.getD_none] at hitems
        exact absurd (List.append_eq_nil_iff.mp hitems.symm).1 hne
      | some l =>
        rw [hg] at hitems
        simp only [Option.getD_some] at hitems
        have hlast : ∀ c ∈ cs, c.addr = b.addr → c.height ≤ b.height := by
          intro c hc hca
          rw [hcs'] at hc
          rcases List.mem_append.mp hc with hc | hc
          · have hr := h b.addr
            rw [hf, hcs', List.filter_append, List.append_assoc, List.map_append, List.pairwise_append] at hr
            apply Nat.le_of_lt
            apply hr.2.2
            · exact List.mem_map.mpr ⟨c, mem_filter_addr.mpr ⟨hc, hca⟩, rfl⟩
            · exact List.mem_map.mpr ⟨b, List.mem_append.mpr (Or.inl (mem_filter_addr.mpr ⟨List.mem_cons_self, rfl⟩)), rfl⟩
          · rcases List.mem_cons.mp hc with rfl | hc
            · exact Nat.le_refl _
            · exact absurd ⟨c, hc, hca⟩ hbf
        have hsa := splitAt_eq h (hf b.addr) hbcs hlast
        simp only
        rw [hitems, hsa]
        have hlen : (itemsOf cs b.addr).length ≠ 0 := by
          intro q; exact hne (List.length_eq_zero_iff.mp q)
        rw [if_neg hlen]
        have htake : (itemsOf bs b.addr).take (itemsOf cs b.addr).length = itemsOf cs b.addr := by
          rw [hsplit, List.take_left]
        have hdrop : (itemsOf bs b.addr).drop (itemsOf cs b.addr).length = itemsOf ds b.addr := by
          rw [hsplit, List.drop_left]
        rw [htake, hdrop]
        apply ih (b :: fin) hcs'
        · exact Table.proper_put _ _ ht
        · split
          · exact proper_rm _ hn
          · exact Table.proper_put _ _ hn
        · intro a
          rw [Table.get_put]
          by_cases ha : a = b.addr
          · subst ha
            simp only [if_true, Option.isSome_some, true_iff]
            exact ⟨b, List.mem_cons_self, rfl⟩
          · rw [if_neg ha, hthis a]
            constructor
            · rintro ⟨c, hc, e⟩; exact ⟨c, List.mem_cons_of_mem _ hc, e⟩
            · rintro ⟨c, hc, e⟩
              rcases List.mem_cons.mp hc with rfl | hc
              · exact absurd e.symm ha
              · exact ⟨c, hc, e⟩
        · intro a ha
          by_cases hab : a = b.addr
          · subst hab
            refine ⟨Table.get_put_self _ _ _, ?_⟩
            split
            · rename_i hge
              rw [get_rm, if_pos rfl]
              rw [hsplit, List.length_append] at hge
              have : (itemsOf ds b.addr).length = 0 := by omega
              rw [List.length_eq_zero_iff.mp this]
              rfl
            · rw [Table.get_put_self]; rfl
          · have ha' : ∃ c ∈ fin, c.addr = a := by
              obtain ⟨c, hc, e⟩ := ha
              rcases List.mem_cons.mp hc with rfl | hc
              · exact absurd e.symm hab
              · exact ⟨c, hc, e⟩
            obtain ⟨h1, h2⟩ := hfin a ha'
            refine ⟨by rw [Table.get_put_ne hab]; exact h1, ?_⟩
            split
            · rw [get_rm, if_neg hab]; exact h2
            · rw [Table.get_put_ne hab]; exact h2
        · intro a ha
          have hab : a ≠ b.addr := fun q => ha ⟨b, List.mem_cons_self, q.symm⟩
          have ha' : ¬ ∃ c ∈ fin, c.addr = a := fun ⟨c, hc, e⟩ => ha ⟨c, List.mem_cons_of_mem _ hc, e⟩
          split
          · rw [get_rm, if_neg hab]; exact hnot a ha'
          · rw [Table.get_put_ne hab]; exact hnot a ha'

/-! ### Deleting -/

theorem deleteRedoLog_spec {log : SnapLog} (hlog : log.Proper) {bs rest ds : List Blk} {b : Blk} (h : Rising bs)
    (hf : bs.filter (fun c => decide (c.addr = b.addr)) = rest.filter (fun c => decide (c.addr = b.addr)) ++ ds.filter (fun c => decide (c.addr = b.addr)))
    (hl : (log.get b.addr).getD [] = itemsOf bs b.addr) (hb : b ∈ ds) (hfirst : ∀ c ∈ ds, c.addr = b.addr → b.height ≤ c.height) :
    (deleteRedoLog log b.addr b.height).1 = itemsOf ds b.addr ∧
    (deleteRedoLog log b.addr b.height).2.Proper ∧
    (((deleteRedoLog log b.addr b.height).2.get b.addr).getD [] = itemsOf rest b.addr) ∧
    ∀ a, a ≠ b.addr → (deleteRedoLog log b.addr b.height).2.get a = log.get a := by
  have hsplit := itemsOf_split hf
  have hbi : b.item ∈ itemsOf ds b.addr := mem_itemsOf.mpr ⟨b, hb, rfl, rfl⟩
  have hge : ∀ i ∈ itemsOf ds b.addr, b.height ≤ i.height := by
    intro i hi
    obtain ⟨c, hc, hca, rfl⟩ := mem_itemsOf.mp hi
    exact hfirst c hc hca
  have hlt : ∀ i ∈ itemsOf rest b.addr, i.height < b.height := by
    intro i hi
    obtain ⟨c, hc, hca, rfl⟩ := mem_itemsOf.mp hi
    exact h.lt hf hc hca hb rfl
  rw [hsplit] at hl
  unfold deleteRedoLog
  cases hg : log.get b.addr with
  | none =>
    rw [hg] at hl
    simp only [Option.getD_none] at hl
    rw [(List.append_eq_nil_iff.mp hl.symm).2] at hbi
    simp at hbi
  | some l =>
    rw [hg] at hl
    simp only [Option.getD_some] at hl
    cases l with
    | nil =>
      rw [(List.append_eq_nil_iff.mp hl.symm).2] at hbi
      simp at hbi
    | cons i l =>
      simp only
      by_cases hr : itemsOf rest b.addr = []
      · rw [hr, List.nil_append] at hl
        rw [if_pos (hge i (by rw [← hl]; exact List.mem_cons_self))]
        refine ⟨hl, proper_rm _ hlog, ?_, ?_⟩
        · rw [get_rm, if_pos rfl, hr]; rfl
        · intro a ha; rw [get_rm, if_neg ha]
      · have hi : i ∈ itemsOf rest b.addr := by
          cases hq : itemsOf rest b.addr with
          | nil => exact absurd hq hr
          | cons x xs =>
            rw [hq] at hl
            simp only [List.cons_append, List.cons.injEq] at hl
            rw [hl.1]; exact List.mem_cons_self
        rw [if_neg (by have := hlt i hi; omega)]
        have hlastm : ∃ j ∈ itemsOf ds b.addr, (i :: l).getLast (by simp) = j := by
          have hne : itemsOf ds b.addr ≠ [] := by intro q; rw [q] at hbi; simp at hbi
          refine ⟨(itemsOf ds b.addr).getLast hne, List.getLast_mem _, ?_⟩
          simp only [hl]
          rw [List.getLast_append_of_ne_nil]
        obtain ⟨j, hj, hje⟩ := hlastm
        rw [if_neg (by rw [hje]; have := hge j hj; omega)]
        have hn : ((i :: l).reverse.dropWhile (fun j => decide (¬ j.height < b.height))).length = (itemsOf rest b.addr).length := by
          rw [hl, dropWhile_split, List.length_reverse]
          · intro x hx
            have := hge x hx
            simp only [decide_eq_true_eq]; omega
          · intro x hx
            have := hlt x hx
            simp only [decide_eq_false_iff_not, not_not]; omega
        simp only [hn]
        simp only [hl, List.take_left, List.drop_left]
        refine ⟨trivial, Table.proper_put _ _ hlog, by rw [Table.get_put_self]; rfl, fun a ha => Table.get_put_ne ha _ _⟩

theorem deleteLogs_spec {bs rest ds : List Blk} (h : Rising bs)
    (hf : ∀ a, bs.filter (fun c => decide (c.addr = a)) = rest.filter (fun c => decide (c.addr = a)) ++ ds.filter (fun c => decide (c.addr = a)))
    (todo fin : List Blk) (hds : ds = fin ++ todo) (del log : SnapLog) (hd : del.Proper) (hl : log.Proper)
    (hdel : ∀ a, (del.get a).isSome ↔ ∃ c ∈ fin, c.addr = a)
    (hfin : ∀ a, (∃ c ∈ fin, c.addr = a) → del.get a = some (itemsOf ds a) ∧ (log.get a).getD [] = itemsOf rest a)
    (hnot : ∀ a, (¬ ∃ c ∈ fin, c.addr = a) → (log.get a).getD [] = itemsOf bs a) :
    LogOk (deleteLogs todo del log).1 ds ∧ LogOk (deleteLogs todo del log).2 rest ∧
    ∀ b ∈ ds, b.addr ∈ (deleteLogs todo del log).1.map (·.1) := by
  induction todo generalizing fin del log with
  | nil =>
    have hfd : ds = fin := by rw [hds, List.append_nil]
    have hnil : ∀ a, (¬ ∃ c ∈ fin, c.addr = a) → itemsOf ds a = [] := by
      intro a ha
      unfold itemsOf
      have : ds.filter (fun c => decide (c.addr = a)) = [] := by
        rw [List.filter_eq_nil_iff]
        intro c hcm
        simp only [decide_eq_true_eq]
        intro hca
        exact ha ⟨c, by rw [← hfd]; exact hcm, hca⟩
      rw [this]; rfl
    unfold deleteLogs
    refine ⟨⟨hd, ?_⟩, ⟨hl, ?_⟩, ?_⟩
    · intro a
      by_cases hc : ∃ c ∈ fin, c.addr = a
      · rw [(hfin a hc).1]; rfl
      · have h1 : del.get a = none := by
          cases hx : del.get a with
          | none => rfl
          | some l => exact absurd ((hdel a).mp (by rw [hx]; rfl)) hc
        rw [h1, hnil a hc]; rfl
    · intro a
      by_cases hc : ∃ c ∈ fin, c.addr = a
      · exact (hfin a hc).2
      · rw [hnot a hc, itemsOf_split (hf a), hnil a hc, List.append_nil]
    · intro b hb
      have := (hfin b.addr ⟨b, by rw [← hfd]; exact hb, rfl⟩).1
      exact List.mem_map.mpr ⟨_, Table.get_mem this, rfl⟩
  | cons b todo ih =>
    have hds' : ds = (fin ++ [b]) ++ todo := by rw [hds]; simp
    unfold deleteLogs
    by_cases hb : (del.get b.addr).isSome
    · rw [if_pos hb]
      have hbf := (hdel b.addr).mp hb
      have hiff : ∀ a, (∃ c ∈ fin ++ [b], c.addr = a) ↔ ∃ c ∈ fin, c.addr = a := by
        intro a
        constructor
        · rintro ⟨c, hc, rfl⟩
          rcases List.mem_append.mp hc with hc | hc
          · exact ⟨c, hc, rfl⟩
          · simp only [List.mem_singleton] at hc; subst hc; exact hbf
        · rintro ⟨c, hc, e⟩; exact ⟨c, List.mem_append.mpr (Or.inl hc), e⟩
      exact ih (fin ++ [b]) hds' del log hd hl (fun a => by rw [hiff]; exact hdel a) (fun a ha => hfin a ((hiff a).mp ha))
        (fun a ha => hnot a (fun q => ha ((hiff a).mpr q)))
    · rw [if_neg hb]
      have hbf : ¬ ∃ c ∈ fin, c.addr = b.addr := fun q => hb ((hdel b.addr).mpr q)
      have hbds : b ∈ ds := by rw [hds']; simp
      have hfirst : ∀ c ∈ ds, c.addr = b.addr → b.height ≤ c.height := by
        intro c hc hca
        rw [hds] at hc
        rcases List.mem_append.mp hc with hc | hc
        · exact absurd ⟨c, hc, hca⟩ hbf
        · rcases List.mem_cons.mp hc with rfl | hc
          · exact Nat.le_refl _
          · have hr := h b.addr
            rw [hf, hds', List.filter_append, ← List.append_assoc, List.map_append, List.pairwise_append] at hr
            apply Nat.le_of_lt
            apply hr.2.2
            · exact List.mem_map.mpr ⟨b, List.mem_append.mpr (Or.inr (mem_filter_addr.mpr ⟨by simp, rfl⟩)), rfl⟩
            · exact List.mem_map.mpr ⟨c, mem_filter_addr.mpr ⟨hc, hca⟩, rfl⟩
      obtain ⟨h1, h2, h3, h4⟩ := deleteRedoLog_spec hl h (hf b.addr) (hnot b.addr hbf) hbds hfirst
      simp only
      apply ih (fin ++ [b]) hds'
      · exact Table.proper_put _ _ hd
      · exact h2
      · intro a
        rw [Table.get_put]
        by_cases ha : a = b.addr
        · subst ha
          simp only [if_true, Option.isSome_some, true_iff]
          exact ⟨b, by simp, rfl⟩
        · rw [if_neg ha, hdel a]
          constructor
          · rintro ⟨c, hc, e⟩; exact ⟨c, List.mem_append.mpr (Or.inl hc), e⟩
          · rintro ⟨c, hc, e⟩
            rcases List.mem_append.mp hc with hc | hc
            · exact ⟨c, hc, e⟩
            · simp only [List.mem_singleton] at hc; subst hc; exact absurd e.symm ha
      · intro a ha
        by_cases hab : a = b.addr
        · subst hab
          exact ⟨by rw [Table.get_put_self, h1], h3⟩
        · have ha' : ∃ c ∈ fin, c.addr = a := by
            obtain ⟨c, hc, e⟩ := ha
            rcases List.mem_append.mp hc with hc | hc
            · exact ⟨c, hc, e⟩
            · simp only [List.mem_singleton] at hc; subst hc; exact absurd e.symm hab
          obtain ⟨q1, q2⟩ := hfin a ha'
          exact ⟨by rw [Table.get_put_ne hab]; exact q1, by rw [h4 a hab]; exact q2⟩
      · intro a ha
        have hab : a ≠ b.addr := fun q => ha ⟨b, by simp, q.symm⟩
        have ha' : ¬ ∃ c ∈ fin, c.addr = a := fun ⟨c, hc, e⟩ => ha ⟨c, List.mem_append.mpr (Or.inl hc), e⟩
        rw [h4 a hab]
        exact hnot a ha'

theorem LogOk.nil : LogOk [] [] := ⟨List.nodup_nil, fun _ => rfl⟩

theorem LogOk.add {l : SnapLog} {bs : List Blk} (h : LogOk l bs) (b : Blk) :
    LogOk (l.put b.addr ((l.get b.addr).getD [] ++ [b.item])) (bs ++ [b]) := by
  refine ⟨Table.proper_put _ _ h.proper, ?_⟩
  intro a
  rw [itemsOf_append]
  by_cases ha : a = b.addr
  · subst ha
    rw [Table.get_put_self, h.items]
    simp [itemsOf]
  · rw [Table.get_put_ne ha, h.items]
    have : itemsOf [b] a = [] := by simp [itemsOf, Ne.symm ha]
    rw [this, List.append_nil]

end Verif.State

import Verif.Builtin.GovProps

/-! C42: the withdraw lists of the governance contract say whose reward an address may withdraw. -/

namespace Verif.Builtin.Gov
open Verif.Vm Verif.Builtin.Reward Verif.Builtin.NameList Spec NameList.Spec

theorem matchName_chars : ∀ (n : Name) (prev : Bool), matchName prev n = true → ∀ c ∈ n, plainChar c = true ∨ c = 32
  | [], _, _, c, hc => by simp at hc
  | x :: xs, prev, h, c, hc => by
    unfold matchName at h
    by_cases hx : plainChar x = true
    · simp only [hx, if_true] at h
      rcases List.mem_cons.mp hc with q | q
      · exact .inl (q ▸ hx)
      · exact matchName_chars xs _ h c q
    · by_cases hy : x = 32 ∧ prev = true
      · rw [if_neg hx, if_pos (by simpa using hy)] at h
        rcases List.mem_cons.mp hc with q | q
        · exact .inr (q.trans hy.1)
        · exact matchName_chars xs _ (by simpa using h) c q
      · simp [hx, hy] at h

theorem checkParam_valid {g : Nat} {n : Name} (h : checkParam g n = true) : ValidName n := by
  unfold checkParam at h
  simp only [Bool.and_eq_true, Bool.not_eq_true', beq_eq_false_iff_ne, ne_eq] at h
  refine ⟨fun q => h.1.1.2 (by simp [q]), fun hc => ?_⟩
  rcases matchName_chars n _ h.2 comma hc with q | q
  · revert q; decide
  · revert q; decide

/-- The list of an address holds exactly the names with `P`. -/
def Holds (l : Nat → Str) (a : Nat) (P : Name → Prop) : Prop :=
  ∃ names : List Name, l a = stored names ∧ names.Nodup ∧ (∀ n ∈ names, ValidName n) ∧ ∀ n, n ∈ names ↔ P n

theorem holds_congr {l : Nat → Str} {a : Nat} {P Q : Name → Prop} (h : Holds l a P) (hq : ∀ n, P n ↔ Q n) : Holds l a Q := by
  obtain ⟨ns, h1, h2, h3, h4⟩ := h
  exact ⟨ns, h1, h2, h3, fun n => (h4 n).trans (hq n)⟩

theorem holds_add {l : Nat → Str} {a b : Nat} {P : Name → Prop} {n : Name} (h : Holds l b P) (hn : ValidName n) (hp : b = a → ¬ P n) :
    Holds (addList l a n) b (fun m => P m ∨ (b = a ∧ m = n)) := by
  obtain ⟨ns, h1, h2, h3, h4⟩ := h
  by_cases hb : b = a
  · subst hb
    refine ⟨ns ++ [n], ?_, ?_, ?_, ?_⟩
    · simp only [addList, updList, if_true, h1, add_stored ns n h3]
    · rw [List.nodup_append]
      refine ⟨h2, by simp, fun x hx y hy => ?_⟩
      simp only [List.mem_singleton] at hy
      rintro rfl
      exact hp rfl ((h4 n).mp (hy ▸ hx))
    · intro m hm
      rcases List.mem_append.mp hm with q | q
      · exact h3 m q
      · simp only [List.mem_singleton] at q; exact q ▸ hn
    · intro m
      simp [h4 m]
  · exact ⟨ns, by simp [addList, updList, hb, h1], h2, h3, fun m => by simp [h4 m, hb]⟩

theorem holds_delete {l : Nat → Str} {a b : Nat} {P : Name → Prop} {n : Name} (h : Holds l b P) (hn : ValidName n) :
    Holds (deleteList l a n) b (fun m => P m ∧ ¬ (b = a ∧ m = n)) := by
  obtain ⟨ns, h1, h2, h3, h4⟩ := h
  by_cases hb : b = a
  · subst hb
    refine ⟨ns.erase n, ?_, h2.erase n, fun m hm => h3 m (List.mem_of_mem_erase hm), fun m => ?_⟩
    · simp only [deleteList, updList, if_true, h1, delete_stored ns n h3 hn h2]
    · rw [h2.mem_erase_iff, h4 m]; simp [and_comm]
  · exact ⟨ns, by simp [deleteList, updList, hb, h1], h2, h3, fun m => by simp [h4 m, hb]⟩

/-- `saveWithdrawRewardAddress` moves one name from the old to the new address. -/
theorem save_holds {l : Nat → Str} {P : Nat → Name → Prop} {n : Name} {old : Option Nat} {new owner : Nat} (h : ∀ a, Holds l a (P a))
    (hn : ValidName n) (hold : ∀ a, P a n ↔ old = some a ∧ a ≠ owner) (b : Nat) :
    Holds (saveWithdraw l old new owner n) b (fun m => if m = n then b = new ∧ b ≠ owner else P b m) := by
  unfold saveWithdraw
  cases old with
  | none =>
    have hno : ∀ a, ¬ P a n := fun a q => by have := (hold a).mp q; simp at this
    simp only
    by_cases h1 : new = owner
    · simp only [h1, if_true]
      refine holds_congr (h b) (fun m => ?_)
      by_cases hm : m = n
      · subst hm; simp only [if_true]; constructor
        · exact fun q => absurd q (hno b)
        · exact fun q => absurd q.1 q.2
      · simp [hm]
    · simp only [h1, if_false]
      refine holds_congr (holds_add (h b) hn (fun _ => hno b)) (fun m => ?_)
      by_cases hm : m = n
      · subst hm
        simp only [hno b, false_or, and_true, if_true]
        exact ⟨fun q => ⟨q, fun w => h1 (q.symm.trans w)⟩, fun q => q.1⟩
      · simp [hm]
  | some o =>
    simp only
    by_cases h0 : o = new
    · simp only [h0, if_true]
      refine holds_congr (h b) (fun m => ?_)
      by_cases hm : m = n
      · subst hm
        simp only [if_true]
        rw [hold b, h0, Option.some.injEq]
        exact ⟨fun q => ⟨q.1.symm, q.2⟩, fun q => ⟨q.1.symm, q.2⟩⟩
      · simp [hm]
    · simp only [h0, if_false]
      by_cases h1 : o = owner
      · simp only [h1, if_true]
        have hno : ∀ a, ¬ P a n := fun a q => by
          have := (hold a).mp q
          simp only [Option.some.injEq] at this
          exact this.2 (this.1.symm.trans h1)
        refine holds_congr (holds_add (h b) hn (fun _ => hno b)) (fun m => ?_)
        by_cases hm : m = n
        · subst hm
          simp only [hno b, false_or, and_true, if_true]
          exact ⟨fun q => ⟨q, fun w => h0 (h1.trans (w.symm.trans q))⟩, fun q => q.1⟩
        · simp [hm]
      · simp only [h1, if_false]
        by_cases h2 : new = owner
        · simp only [h2, if_true]
          refine holds_congr (holds_delete (h b) hn) (fun m => ?_)
          by_cases hm : m = n
          · subst hm
            simp only [and_true, if_true]
            rw [hold b, Option.some.injEq]
            constructor
            · exact fun q => absurd q.1.1.symm q.2
            · exact fun q => absurd q.1 q.2
          · simp [hm]
        · simp only [h2, if_false]
          have hp : b = new → ¬ (P b n ∧ ¬ (b = o ∧ n = n)) := by
            rintro rfl q
            have := (hold b).mp q.1
            simp only [Option.some.injEq] at this
            exact h0 this.1
          refine holds_congr (holds_add (holds_delete (a := o) (h b) hn) hn hp) (fun m => ?_)
          by_cases hm : m = n
          · subst hm
            simp only [and_true, if_true]
            rw [hold b, Option.some.injEq]
            constructor
            · rintro (q | q)
              · exact absurd q.1.1.symm q.2
              · exact ⟨q, fun w => h2 (q.symm.trans w)⟩
            · exact fun q => .inr q.1
          · simp [hm]

theorem lists_result (st : State) (x : Call) (res : Result) (hl : ListsOk st) (h : x.result st = some res) : ListsOk res.st := by
  have hold : ∀ a, Holds st.lists a (fun n => ∃ r, reg st snapshotGid n = some r ∧ r.withdraw = a ∧ r.owner ≠ a) := by
    intro a
    obtain ⟨ns, h1, h2, h3⟩ := hl.lists a
    refine ⟨ns, h1, h2, fun n hn => ?_, h3⟩
    obtain ⟨r, hr, _⟩ := (h3 n).mp hn
    exact hl.valid _ _ _ hr
  -- rewriting a registration with the same owner and withdraw address
  have same : ∀ g n (old r : Reg), res.st.regs = Table.put (g, n) r st.regs → res.st.lists = st.lists → reg st g n = some old →
      r.withdraw = old.withdraw → r.owner = old.owner → ListsOk res.st := by
    intro g n old r hput hlist ho hw how
    refine ⟨fun a => ?_, fun g' n' r' hr' => ?_, fun g' n' r' hr' hg => ?_⟩
    · obtain ⟨ns, h1, h2, h3⟩ := hl.lists a
      refine ⟨ns, by rw [hlist]; exact h1, h2, fun m => ?_⟩
      rw [h3 m, reg_put res.st _ _ r _ hput]
      by_cases hn : snapshotGid = g ∧ m = n
      · obtain ⟨rfl, rfl⟩ := hn
        simp only [and_self, if_true, Option.some.injEq, exists_eq_left', ho, hw, how]
      · simp only [hn, if_false]; rfl
    · rw [reg_put res.st _ _ r _ hput] at hr'
      by_cases hn : g' = g ∧ n' = n
      · obtain ⟨rfl, rfl⟩ := hn; exact hl.valid _ _ _ ho
      · simp only [hn, if_false] at hr'; exact hl.valid _ _ _ hr'
    · rw [reg_put res.st _ _ r _ hput] at hr'
      by_cases hn : g' = g ∧ n' = n
      · obtain ⟨rfl, rfl⟩ := hn
        simp only [and_self, if_true, Option.some.injEq] at hr'
        subst hr'
        rw [hw, how]; exact hl.others _ _ _ ho hg
      · simp only [hn, if_false] at hr'; exact hl.others _ _ _ hr' hg
  -- writing a snapshot registration together with the lists
  have moved : ∀ n (r : Reg) (old : Option Nat), res.st.regs = Table.put (snapshotGid, n) r st.regs → ValidName n →
      res.st.lists = saveWithdraw st.lists old r.withdraw r.owner n →
      (∀ a, (∃ r0, reg st snapshotGid n = some r0 ∧ r0.withdraw = a ∧ r0.owner ≠ a) ↔ old = some a ∧ a ≠ r.owner) → ListsOk res.st := by
    intro n r old hput hv hlist hiff
    refine ⟨fun a => ?_, fun g' n' r' hr' => ?_, fun g' n' r' hr' hg => ?_⟩
    · obtain ⟨ns, h1, h2, _, h3⟩ := save_holds (new := r.withdraw) (owner := r.owner) hold hv hiff a
      refine ⟨ns, by rw [hlist]; exact h1, h2, fun m => ?_⟩
      rw [h3 m, reg_put res.st _ _ r _ hput]
      by_cases hn : m = n
      · subst hn
        simp only [and_self, if_true, Option.some.injEq, exists_eq_left']
        exact ⟨fun q => ⟨q.1.symm, q.2.symm⟩, fun q => ⟨q.1.symm, q.2.symm⟩⟩
      · have hn' : ¬ (snapshotGid = snapshotGid ∧ m = n) := fun q => hn q.2
        beta_reduce; rw [if_neg hn, if_neg hn']; rfl
    · rw [reg_put res.st _ _ r _ hput] at hr'
      by_cases hn : g' = snapshotGid ∧ n' = n
      · exact hn.2 ▸ hv
      · simp only [hn, if_false] at hr'; exact hl.valid _ _ _ hr'
    · rw [reg_put res.st _ _ r _ hput] at hr'
      by_cases hn : g' = snapshotGid ∧ n' = n
      · exact absurd hn.1 hg
      · simp only [hn, if_false] at hr'; exact hl.others _ _ _ hr' hg
  cases result_change h with
  | register gid n producing withdraw o q lock hm hp ht ha ho hc hl' hr =>
    by_cases hg : gid = snapshotGid
    · subst hg
      refine moved n _ o.2 (congrArg (fun r : Result => r.st.regs) hr) (checkParam_valid hp) (congrArg (fun r : Result => r.st.lists) hr) ?_
      intro a
      rcases takeOver_his ho with ⟨h1, h2⟩ | ⟨r, h1, _, h3, _, h2⟩
      · rw [h1, h2]; simp
      · rw [h1, h2]
        simp only [Option.some.injEq, exists_eq_left']
        rw [h3]
        exact ⟨fun q => ⟨q.1, q.2.symm⟩, fun q => ⟨q.1, q.2.symm⟩⟩
    · have hw : withdraw = x.sender := by
        rcases hm with ⟨_, q⟩ | ⟨_, q⟩
        · exact q
        · exact absurd q hg
      have hput : res.st.regs = _ := congrArg (fun r : Result => r.st.regs) hr
      have hlist : res.st.lists = st.lists := by
        rw [congrArg (fun r : Result => r.st.lists) hr]
        simp only
        rcases takeOver_his ho with ⟨h1, h2⟩ | ⟨r, h1, _, h3, _, h2⟩
        · rw [h2, hw]; simp [saveWithdraw]
        · rw [h2, hw, hl.others gid n r h1 hg, h3]; simp [saveWithdraw]
      refine ⟨fun a => ?_, fun g' n' r' hr' => ?_, fun g' n' r' hr' hg' => ?_⟩
      · obtain ⟨ns, h1, h2, h3⟩ := hl.lists a
        refine ⟨ns, by rw [hlist]; exact h1, h2, fun m => ?_⟩
        rw [h3 m, reg_put res.st _ _ _ _ hput]
        have hn : ¬ (snapshotGid = gid ∧ m = n) := fun q => hg q.1.symm
        rw [if_neg hn]; rfl
      · rw [reg_put res.st _ _ _ _ hput] at hr'
        by_cases hn : g' = gid ∧ n' = n
        · exact hn.2 ▸ checkParam_valid hp
        · rw [if_neg hn] at hr'; exact hl.valid _ _ _ hr'
      · rw [reg_put res.st _ _ _ _ hput] at hr'
        by_cases hn : g' = gid ∧ n' = n
        · rw [if_pos hn, Option.some.injEq] at hr'
          rw [← hr']; exact hw
        · rw [if_neg hn] at hr'; exact hl.others _ _ _ hr' hg'
  | revoke gid n old hm ha ho hact how hex hr =>
    exact same gid n old _ (congrArg (fun r : Result => r.st.regs) hr) (congrArg (fun r : Result => r.st.lists) hr) ho rfl rfl
  | reward n receive old hm ha ho ht how hne hr =>
    exact same snapshotGid n old _ (congrArg (fun r : Result => r.st.regs) hr) (congrArg (fun r : Result => r.st.lists) hr) ho rfl rfl
  | noReward n receive hm ha hr => subst hr; exact hl
  | producing gid n addr old q hm hp ha ho hact how hc hr =>
    exact same gid n old _ (congrArg (fun r : Result => r.st.regs) hr) (congrArg (fun r : Result => r.st.lists) hr) ho rfl rfl
  | withdraw n addr old hm hp ha ho hact how hne hr =>
    refine moved n _ (some old.withdraw) (congrArg (fun r : Result => r.st.regs) hr) (checkParam_valid hp) (congrArg (fun r : Result => r.st.lists) hr) ?_
    intro a
    rw [ho]
    simp only [Option.some.injEq, exists_eq_left']
    exact ⟨fun q => ⟨q.1, q.2.symm⟩, fun q => ⟨q.1, q.2.symm⟩⟩
  | vote gid v hm ha hact hr => subst hr; exact ⟨hl.lists, hl.valid, hl.others⟩

/-- **C42**: over every history, listing the names of an address gives each name that has chosen it as withdraw address
(other than the owner's own) exactly once, and no other. -/
theorem withdraw_list_exact (xs : List Call) (st : State) (hl : ListsOk st) (a : Nat) :
    (listNames ((runAll st xs).lists a)).Nodup ∧
    ∀ n, n ∈ listNames ((runAll st xs).lists a) ↔
      ∃ r, reg (runAll st xs) snapshotGid n = some r ∧ r.withdraw = a ∧ r.owner ≠ a := by
  have h := invariant lists_result xs st hl
  obtain ⟨ns, h1, h2, h3⟩ := h.lists a
  have hv : ∀ n ∈ ns, ValidName n := fun n hn => by
    obtain ⟨r, hr, _⟩ := (h3 n).mp hn
    exact h.valid _ _ _ hr
  rw [h1, list_stored ns hv]
  exact ⟨h2, h3⟩

/-- All registered names passed the check of the parameters. -/
def Accepted (st : State) : Prop := ∀ g n r, reg st g n = some r → checkParam g n = true

theorem accepted_result (st : State) (x : Call) (res : Result) (hl : Accepted st) (h : x.result st = some res) : Accepted res.st := by
  have put : ∀ g n (r : Reg), res.st.regs = Table.put (g, n) r st.regs → checkParam g n = true → Accepted res.st := by
    intro g n r hput hc g' n' r' hr'
    rw [reg_put res.st _ _ r _ hput] at hr'
    by_cases hn : g' = g ∧ n' = n
    · rw [hn.1, hn.2]; exact hc
    · rw [if_neg hn] at hr'; exact hl _ _ _ hr'
  cases result_change h with
  | register gid n producing withdraw o q lock hm hp ht ha ho hc hl' hr => exact put gid n _ (congrArg (fun r : Result => r.st.regs) hr) hp
  | revoke gid n old hm ha ho hact how hex hr => exact put gid n _ (congrArg (fun r : Result => r.st.regs) hr) (hl _ _ _ ho)
  | reward n receive old hm ha ho ht how hne hr => exact put snapshotGid n _ (congrArg (fun r : Result => r.st.regs) hr) (hl _ _ _ ho)
  | noReward n receive hm ha hr => subst hr; exact hl
  | producing gid n addr old q hm hp ha ho hact how hc hr => exact put gid n _ (congrArg (fun r : Result => r.st.regs) hr) hp
  | withdraw n addr old hm hp ha ho hact how hne hr => exact put snapshotGid n _ (congrArg (fun r : Result => r.st.regs) hr) hp
  | vote gid v hm ha hact hr => subst hr; exact hl

/-- **C42**: every name in the contract has 1 to 40 bytes, none of them a comma, and is not in the delegate group. -/
theorem names_are_valid (xs : List Call) (st : State) (hl : Accepted st) (g : Nat) (n : Name) (r : Reg)
    (h : reg (runAll st xs) g n = some r) : 1 ≤ n.length ∧ n.length ≤ 40 ∧ comma ∉ n ∧ g ≠ delegateGid := by
  have hc := invariant accepted_result xs st hl g n r h
  have hv := checkParam_valid hc
  unfold checkParam nameLengthMax at hc
  simp only [Bool.and_eq_true, Bool.not_eq_true', beq_eq_false_iff_ne, ne_eq, decide_eq_false_iff_not] at hc
  exact ⟨by omega, by omega, hv.2, hc.1.1.1⟩

end Verif.Builtin.Gov

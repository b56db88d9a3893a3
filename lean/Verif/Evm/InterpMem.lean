import Verif.Evm.InterpProps

/-!
# C09: memory accesses are paid for; C06: no other crash

For every instruction but CALL2 the memory range it accesses lies, when it executes, inside the memory whose whole price was
charged; no byte outside the range is changed. CALL2 and the pricing of CALL read memory that was not grown before: see the
counterexamples in `InterpExamples`.
-/

namespace Verif.Evm

open Verif.Bytes (Bytes num be)
open Verif.Evm.Word

/-- The memory range of the instruction is inside the memory. -/
def Covered (i : Instr) (m : Machine) : Prop :=
  (i.range m.stack).2 = 0 ∨ (0 ≤ (i.range m.stack).1 ∧ 0 < (i.range m.stack).2 ∧
    (i.range m.stack).1 + (i.range m.stack).2 ≤ m.mem.store.length)

theorem memorySize_covers {i : Instr} {s : List Int} {sz : Nat} (hw : ∀ x ∈ s, IsWord x) (hi : i ≠ .call2)
    (hp : i.pops ≤ s.length) (h : memorySize i s = some sz) :
    (i.range s).2 = 0 ∨ (0 ≤ (i.range s).1 ∧ 0 < (i.range s).2 ∧ (i.range s).1 + (i.range s).2 ≤ sz) := by
  have key : ∀ (off l : Int), 0 ≤ off → 0 ≤ l → i.memSize s = some (calcMemSize off l) →
      l = 0 ∨ (0 ≤ off ∧ 0 < l ∧ off + l ≤ sz) := by
    intro off l h0 h1 hm
    unfold memorySize at h
    rw [hm] at h
    dsimp only at h
    by_cases hl : l = 0
    · exact Or.inl hl
    · right
      unfold calcMemSize at h
      rw [if_neg hl] at h
      split at h
      · simp at h
      · split at h
        · simp at h
        · rename_i h2 h3
          simp only [Option.some.injEq] at h
          unfold toWordSize at h h3
          unfold maxUint64 at h h3
          split at h
          · rename_i h4
            rw [if_pos h4] at h3
            omega
          · omega
  cases i with
  | call2 => exact absurd rfl hi
  | sha3 =>
    match s, hp, hw, key with
    | a :: b :: _, _, hw, key => exact key a b (hw a (by simp)).1 (hw b (by simp)).1 rfl
    | [_], hp, _, _ => simp [Instr.pops] at hp
    | [], hp, _, _ => simp [Instr.pops] at hp
  | blake2b =>
    match s, hp, hw, key with
    | a :: b :: _, _, hw, key => exact key a b (hw a (by simp)).1 (hw b (by simp)).1 rfl
    | [_], hp, _, _ => simp [Instr.pops] at hp
    | [], hp, _, _ => simp [Instr.pops] at hp
  | ret =>
    match s, hp, hw, key with
    | a :: b :: _, _, hw, key => exact key a b (hw a (by simp)).1 (hw b (by simp)).1 rfl
    | [_], hp, _, _ => simp [Instr.pops] at hp
    | [], hp, _, _ => simp [Instr.pops] at hp
  | revert =>
    match s, hp, hw, key with
    | a :: b :: _, _, hw, key => exact key a b (hw a (by simp)).1 (hw b (by simp)).1 rfl
    | [_], hp, _, _ => simp [Instr.pops] at hp
    | [], hp, _, _ => simp [Instr.pops] at hp
  | log n =>
    match s, hp, hw, key with
    | a :: b :: _, _, hw, key => exact key a b (hw a (by simp)).1 (hw b (by simp)).1 rfl
    | [_], hp, _, _ => simp [Instr.pops] at hp
    | [], hp, _, _ => simp [Instr.pops] at hp
  | calldatacopy =>
    match s, hp, hw, key with
    | a :: _ :: b :: _, _, hw, key => exact key a b (hw a (by simp)).1 (hw b (by simp)).1 rfl
    | [_, _], hp, _, _ => simp [Instr.pops] at hp
    | [_], hp, _, _ => simp [Instr.pops] at hp
    | [], hp, _, _ => simp [Instr.pops] at hp
  | codecopy =>
    match s, hp, hw, key with
    | a :: _ :: b :: _, _, hw, key => exact key a b (hw a (by simp)).1 (hw b (by simp)).1 rfl
    | [_, _], hp, _, _ => simp [Instr.pops] at hp
    | [_], hp, _, _ => simp [Instr.pops] at hp
    | [], hp, _, _ => simp [Instr.pops] at hp
  | returndatacopy =>
    match s, hp, hw, key with
    | a :: _ :: b :: _, _, hw, key => exact key a b (hw a (by simp)).1 (hw b (by simp)).1 rfl
    | [_, _], hp, _, _ => simp [Instr.pops] at hp
    | [_], hp, _, _ => simp [Instr.pops] at hp
    | [], hp, _, _ => simp [Instr.pops] at hp
  | mload =>
    match s, hp, hw, key with
    | a :: _, _, hw, key => exact key a 32 (hw a (by simp)).1 (by norm_num) rfl
    | [], hp, _, _ => simp [Instr.pops] at hp
  | mstore =>
    match s, hp, hw, key with
    | a :: _, _, hw, key => exact key a 32 (hw a (by simp)).1 (by norm_num) rfl
    | [], hp, _, _ => simp [Instr.pops] at hp
  | mstore8 =>
    match s, hp, hw, key with
    | a :: _, _, hw, key => exact key a 1 (hw a (by simp)).1 (by norm_num) rfl
    | [], hp, _, _ => simp [Instr.pops] at hp
  | call =>
    match s, hp, hw, key with
    | _ :: _ :: _ :: a :: b :: _, _, hw, key => exact key a b (hw a (by simp)).1 (hw b (by simp)).1 rfl
    | [_, _, _, _], hp, _, _ => simp [Instr.pops] at hp
    | [_, _, _], hp, _, _ => simp [Instr.pops] at hp
    | [_, _], hp, _, _ => simp [Instr.pops] at hp
    | [_], hp, _, _ => simp [Instr.pops] at hp
    | [], hp, _, _ => simp [Instr.pops] at hp
  | _ => left; simp [Instr.range]

/-- **C09.** When an instruction other than CALL2 executes, the memory range it accesses is inside the memory, and the
price of the whole memory, linear and quadratic part, has been charged to the quota the run began with. -/
theorem memory_paid_partial {e : Env} (ok : e.Ok) {q : Nat} (hq : q < 2 ^ 32) {m : Machine} (h : Reach e (init q) m) {i : Instr}
    {sz c : Nat} {flag : Bool} {mem : Mem} {touched : List Nat} {m1 : Machine}
    (hf : Fired e m i sz c flag mem touched m1) :
    (i ≠ .call2 → Covered i m1) ∧
    ∃ w, m1.mem.store.length = 32 * w ∧ (i ≠ .sstore → m1.quota + memPrice e.table w ≤ q) ∧
      (i = .sstore → m1.mem = m.mem) := by
  have inv := inv_reach ok hq h
  have hc := fired_charged ok hq inv hf
  obtain ⟨hst, -⟩ := hf.stack
  obtain ⟨w, hw1, hw2⟩ := hc.memory
  refine ⟨fun hi => ?_, w, hw1, fun hi => ?_, hc.sstore⟩
  · unfold Covered
    rw [hst, hc.size]
    rcases memorySize_covers inv.wide.words hi hf.pops hf.size with h1 | ⟨h1, h2, h3⟩
    · exact Or.inl h1
    · exact Or.inr ⟨h1, h2, by omega⟩
  · have := (hc.quota hi).2
    have := inv.paid
    rw [hw2] at *
    omega

/-- **C09.** In every state of every run the price of the whole memory has been charged. -/
theorem memory_always_paid {e : Env} (ok : e.Ok) {q : Nat} (hq : q < 2 ^ 32) {m : Machine} (h : Reach e (init q) m) :
    ∃ w, m.mem.store.length = 32 * w ∧ m.quota + memPrice e.table w ≤ q := by
  have inv := inv_reach ok hq h
  obtain ⟨w, h1, h2⟩ := inv.memory
  exact ⟨w, h1, by have := inv.paid; omega⟩

/-! ### Reading and writing memory -/

theorem toInt64_small {x : Int} (h0 : 0 ≤ x) (h1 : x < 2 ^ 62) : toInt64 x = x := by
  unfold toInt64
  rw [Int.emod_eq_of_lt h0 (by omega), if_pos (by omega)]

theorem toUint64_small {x : Int} (h0 : 0 ≤ x) (h1 : x < 2 ^ 62) : toUint64 x = x.toNat := by
  unfold toUint64
  rw [Int.emod_eq_of_lt h0 (by omega)]

/-- Reading a range inside the memory gives its bytes. -/
theorem get_covered {m : Mem} {o n : Int} (hl : m.store.length < 2 ^ 40) (hc : m.store.length ≤ m.cap)
    (h : n = 0 ∨ (0 ≤ o ∧ 0 < n ∧ o + n ≤ m.store.length)) :
    m.get (toInt64 o) (toInt64 n) = some ((m.store.drop o.toNat).take n.toNat) := by
  rcases h with rfl | ⟨h0, h1, h2⟩
  · have : toInt64 0 = 0 := by decide
    rw [this]; simp [Mem.get]
  · rw [toInt64_small h0 (by omega), toInt64_small h1.le (by omega)]
    unfold Mem.get
    rw [if_neg (by omega), if_pos (by omega), if_neg (by omega)]
    congr 1
    rw [List.drop_append_of_le_length (by omega), List.take_append_of_le_length]
    rw [List.length_drop]; omega

/-- Writing to a range inside the memory changes its bytes. -/
theorem set_covered {m : Mem} {o n : Int} {v : Bytes} (hl : m.store.length < 2 ^ 40)
    (h : n = 0 ∨ (0 ≤ o ∧ 0 < n ∧ o + n ≤ m.store.length)) :
    m.set (toUint64 o) (toUint64 n) v =
      some (if n = 0 then m else { m with store := splice m.store o.toNat (v.take n.toNat) }) := by
  rcases h with rfl | ⟨h0, h1, h2⟩
  · have : toUint64 0 = 0 := by decide
    rw [this]; simp [Mem.set]
  · rw [toUint64_small h0 (by omega), toUint64_small h1.le (by omega)]
    unfold Mem.set
    rw [if_neg (by omega), if_neg (by omega), if_neg (by omega)]

/-- Bytes outside the range spliced in stay. -/
theorem splice_get {s : Bytes} {o : Nat} {b : Bytes} (h : o + b.length ≤ s.length) (k : Nat) :
    (splice s o b)[k]? = if o ≤ k ∧ k < o + b.length then b[k - o]? else s[k]? := by
  unfold splice
  by_cases h1 : k < o
  · rw [if_neg (by omega), List.append_assoc, List.getElem?_append_left (by simp; omega), List.getElem?_take_of_lt h1]
  · by_cases h2 : k < o + b.length
    · rw [if_pos (by omega), List.getElem?_append_left (by simp; omega), List.getElem?_append_right (by simp; omega)]
      congr 1; simp; omega
    · rw [if_neg (by omega), List.getElem?_append_right (by simp; omega), List.getElem?_drop]
      congr 1
      simp; omega

/-! ### The instructions do not crash -/

theorem cons1 {s : List Int} (h : 1 ≤ s.length) : ∃ a t, s = a :: t := by
  cases s with
  | nil => simp at h
  | cons a t => exact ⟨a, t, rfl⟩

theorem cons2 {s : List Int} (h : 2 ≤ s.length) : ∃ a b t, s = a :: b :: t := by
  obtain ⟨a, s, rfl⟩ := cons1 (by omega : 1 ≤ s.length)
  obtain ⟨b, s, rfl⟩ := cons1 (by simpa using h : 1 ≤ s.length)
  exact ⟨a, b, s, rfl⟩

theorem cons3 {s : List Int} (h : 3 ≤ s.length) : ∃ a b c t, s = a :: b :: c :: t := by
  obtain ⟨a, b, s, rfl⟩ := cons2 (by omega : 2 ≤ s.length)
  obtain ⟨c, s, rfl⟩ := cons1 (by simpa using h : 1 ≤ s.length)
  exact ⟨a, b, c, s, rfl⟩

theorem cons5 {s : List Int} (h : 5 ≤ s.length) : ∃ a b c d f t, s = a :: b :: c :: d :: f :: t := by
  obtain ⟨a, b, c, s, rfl⟩ := cons3 (by omega : 3 ≤ s.length)
  obtain ⟨d, f, s, rfl⟩ := cons2 (by simpa using h : 2 ≤ s.length)
  exact ⟨a, b, c, d, f, s, rfl⟩

theorem decode_dup {set : Set} {b n : Nat} (h : decode set b = some (.dup n)) : 1 ≤ n := by
  unfold decode at h
  split at h
  · simp at h
  split at h
  · simp only [Option.some.injEq, Instr.dup.injEq] at h; omega
  split at h
  · simp at h
  split at h
  · simp at h
  split at h <;> first | (simp at h; done) | (split at h <;> simp at h)

/-- An instruction does not crash if it has its operands and its memory range. -/
theorem execute_no_panic {e : Env} (ok : e.Ok) {i : Instr} {m : Machine} (hp : i.pops ≤ m.stack.length)
    (hw : ∀ x ∈ m.stack, IsWord x) (hc : Covered i m) (hl : m.mem.store.length < 2 ^ 40)
    (hcap : m.mem.store.length ≤ m.mem.cap) (hdup : ∀ n, i = .dup n → 1 ≤ n) : execute e i m ≠ .panic := by
  have top : ∀ {n : Nat} {f : List Int → Int}, n ≤ m.stack.length → execTop m n f ≠ .panic := by
    intro n f hn
    unfold execTop
    rw [if_neg (by omega)]; simp
  have jump : ∀ {pos : Int} {s : List Int}, pos ∈ m.stack → jumpTo e m pos s ≠ .panic := by
    intro pos s hm
    obtain ⟨b, hb, -⟩ := hasDest_iff (code := e.code) (hw pos hm).1 ok.code
    unfold jumpTo
    rw [hb]
    cases b <;> simp
  have call : 5 ≤ m.stack.length → ((Instr.range .call m.stack).2 = 0 ∨ (0 ≤ (Instr.range .call m.stack).1 ∧
      0 < (Instr.range .call m.stack).2 ∧
      (Instr.range .call m.stack).1 + (Instr.range .call m.stack).2 ≤ m.mem.store.length)) → execCall e m ≠ .panic := by
    intro h5 hc
    obtain ⟨a, b, c, d, f, t, hs⟩ := cons5 h5
    rw [hs] at hc
    have := get_covered hl hcap hc
    dsimp only [Instr.range] at this
    unfold execCall
    rw [hs]; dsimp only
    split
    · simp
    · rw [this]; simp
  cases i with
  | stop => simp [execute]
  | bin b => simp only [execute]; exact top hp
  | addmod => simp only [execute]; exact top hp
  | mulmod => simp only [execute]; exact top hp
  | iszero => simp only [execute]; exact top hp
  | not => simp only [execute]; exact top hp
  | src s => simp only [execute]; exact top hp
  | balance => simp only [execute]; exact top hp
  | calldataload => simp only [execute]; exact top hp
  | pc => simp only [execute]; exact top hp
  | msize => simp only [execute]; exact top hp
  | sha3 =>
    obtain ⟨a, b, t, hs⟩ := cons2 hp
    unfold Covered at hc; rw [hs] at hc
    have := get_covered hl hcap hc
    dsimp only [Instr.range] at this
    simp only [execute, execHash]
    rw [hs]; dsimp only; rw [this]; simp
  | blake2b =>
    obtain ⟨a, b, t, hs⟩ := cons2 hp
    unfold Covered at hc; rw [hs] at hc
    have := get_covered hl hcap hc
    dsimp only [Instr.range] at this
    simp only [execute, execHash]
    rw [hs]; dsimp only; rw [this]; simp
  | calldatacopy =>
    obtain ⟨a, b, c, t, hs⟩ := cons3 hp
    unfold Covered at hc; rw [hs] at hc
    simp only [execute, execCopy]
    rw [hs]; dsimp only
    rw [set_covered hl (by simpa [Instr.range] using hc)]; simp
  | codecopy =>
    obtain ⟨a, b, c, t, hs⟩ := cons3 hp
    unfold Covered at hc; rw [hs] at hc
    simp only [execute, execCopy]
    rw [hs]; dsimp only
    rw [set_covered hl (by simpa [Instr.range] using hc)]; simp
  | returndatacopy =>
    obtain ⟨a, b, c, t, hs⟩ := cons3 hp
    unfold Covered at hc; rw [hs] at hc
    simp only [execute, execReturnDataCopy]
    rw [hs]; dsimp only
    split
    · simp
    · rw [set_covered hl (by simpa [Instr.range] using hc)]; simp
  | pop =>
    obtain ⟨a, t, hs⟩ := cons1 hp
    simp [execute, hs]
  | mload =>
    obtain ⟨a, t, hs⟩ := cons1 hp
    unfold Covered at hc; rw [hs] at hc
    have := get_covered hl hcap hc
    dsimp only [Instr.range] at this
    have e32 : toInt64 32 = 32 := by decide
    rw [e32] at this
    simp only [execute, execMload]
    rw [hs]; dsimp only; rw [this]; simp
  | mstore =>
    obtain ⟨a, b, t, hs⟩ := cons2 hp
    unfold Covered at hc; rw [hs] at hc
    dsimp only [Instr.range] at hc
    simp only [execute, execMstore]
    rw [hs]; dsimp only
    unfold Mem.set32
    have ha := hw a (by simp [hs])
    rw [toUint64_small ha.1 (by omega), if_neg (by omega)]; simp
  | mstore8 =>
    obtain ⟨a, b, t, hs⟩ := cons2 hp
    unfold Covered at hc; rw [hs] at hc
    dsimp only [Instr.range] at hc
    simp only [execute, execMstore8]
    rw [hs]; dsimp only
    have ha := hw a (by simp [hs])
    rw [toInt64_small ha.1 (by omega), if_pos (by omega)]; simp
  | sload =>
    obtain ⟨a, t, hs⟩ := cons1 hp
    simp [execute, execSload, hs]
  | sstore =>
    obtain ⟨a, b, t, hs⟩ := cons2 hp
    simp only [execute, execSstore, hs]
    split <;> simp
  | jump =>
    obtain ⟨a, t, hs⟩ := cons1 hp
    simp only [execute, execJump, hs]
    exact jump (by simp [hs])
  | jumpi =>
    obtain ⟨a, b, t, hs⟩ := cons2 hp
    simp only [execute, execJumpi, hs]
    split
    · exact jump (by simp [hs])
    · simp
  | jumpdest => simp [execute]
  | push n => simp [execute, execPush]
  | dup n =>
    have := hdup n rfl
    simp only [Instr.pops] at hp
    simp only [execute, execDup]
    rw [if_neg (by omega), List.getElem?_eq_getElem (by omega)]; simp
  | swap n =>
    simp only [Instr.pops] at hp
    simp only [execute, execSwap]
    rw [List.getElem?_eq_getElem (by omega), List.getElem?_eq_getElem (by omega)]; simp
  | log n =>
    simp only [Instr.pops] at hp
    obtain ⟨a, b, t, hs⟩ := cons2 (by omega : 2 ≤ m.stack.length)
    unfold Covered at hc; rw [hs] at hc
    have := get_covered hl hcap hc
    dsimp only [Instr.range] at this
    simp only [execute, execLog]
    rw [hs] at hp ⊢; dsimp only
    rw [if_neg (by simp at hp; omega)]
    split
    · simp
    · rw [this]; simp
  | call => exact call hp hc
  | call2 =>
    have := call hp (by
      obtain ⟨a, b, c, d, f, t, hs⟩ := cons5 hp
      unfold Covered at hc
      rw [hs] at hc ⊢
      exact hc)
    simp only [execute, execCall2]
    split
    · simp
    · rename_i hh
      exact this
  | ret =>
    obtain ⟨a, b, t, hs⟩ := cons2 hp
    unfold Covered at hc; rw [hs] at hc
    have := get_covered hl hcap hc
    dsimp only [Instr.range] at this
    simp only [execute, execReturn]
    rw [hs]; dsimp only; rw [this]; simp
  | revert =>
    obtain ⟨a, b, t, hs⟩ := cons2 hp
    unfold Covered at hc; rw [hs] at hc
    have := get_covered hl hcap hc
    dsimp only [Instr.range] at this
    simp only [execute, execRevert, execReturn]
    rw [hs]; dsimp only; rw [this]
    split <;> simp

theorem decode_call {set : Set} {b : Nat} {i : Instr} (h : decode set b = some i) (hi : i = .call ∨ i = .call2) :
    b = 0xf1 ∨ b = 0xf2 := by
  unfold decode at h
  split at h
  · simp only [Option.some.injEq] at h; subst h; simp at hi
  split at h
  · simp only [Option.some.injEq] at h; subst h; simp at hi
  split at h
  · simp only [Option.some.injEq] at h; subst h; simp at hi
  split at h
  · simp only [Option.some.injEq] at h; subst h; simp at hi
  split at h
  all_goals first
    | exact Or.inl rfl
    | exact Or.inr rfl
    | (simp only [Option.some.injEq] at h; subst h; simp at hi; done)
    | (split at h <;> first | (simp at h; done) | (simp only [Option.some.injEq] at h; subst h; simp at hi; done))
    | (simp at h; done)

theorem gasCost_panic {e : Env} {i : Instr} {m : Machine} {sz : Nat} (h : gasCost e i m sz = .panic) :
    (i = .call ∨ i = .call2) ∧ m.mem.get (toInt64 (back m.stack 3)) (toInt64 (back m.stack 4)) = none := by
  have hof : ∀ o, Price.of m o ≠ .panic := by
    intro o; unfold Price.of; split <;> simp
  have hcall : gasCall e m sz = .panic → m.mem.get (toInt64 (back m.stack 3)) (toInt64 (back m.stack 4)) = none := by
    intro h
    unfold gasCall at h
    split at h
    · simp at h
    · split at h
      · assumption
      · split at h
        · simp at h
        · split at h
          · split at h <;> simp at h
          · simp at h
  cases i with
  | call => exact ⟨Or.inl rfl, hcall h⟩
  | call2 => exact ⟨Or.inr rfl, hcall h⟩
  | sstore =>
    simp only [gasCost] at h
    unfold gasSStore at h
    dsimp only at h
    generalize (if e.limit then touch m.touched (back m.stack 0).toNat else m.touched) = tt at h
    split at h <;> simp at h
  | bin b => cases b <;> simp [gasCost] at h
  | sha3 => exact absurd h (hof _)
  | blake2b => exact absurd h (hof _)
  | calldatacopy => exact absurd h (hof _)
  | codecopy => exact absurd h (hof _)
  | returndatacopy => exact absurd h (hof _)
  | mload => exact absurd h (hof _)
  | mstore => exact absurd h (hof _)
  | mstore8 => exact absurd h (hof _)
  | log n => exact absurd h (hof _)
  | ret => exact absurd h (hof _)
  | revert => exact absurd h (hof _)
  | _ => simp [gasCost] at h

/-- **C06, C09.** The interpreter crashes on no code and no input, except in a CALL or CALL2 whose input range is not inside
the memory in use. -/
theorem crash_only_in_calls {e : Env} (ok : e.Ok) {q : Nat} (hq : q < 2 ^ 32) {m m' : Machine} (h : Reach e (init q) m)
    (hs : step e m = .stop m' .panic) :
    (getOp e.code m.pc = 0xf1 ∨ getOp e.code m.pc = 0xf2) ∧ 5 ≤ m.stack.length ∧
      m.stack.getD 3 0 + m.stack.getD 4 0 > m.mem.store.length ∧ m.stack.getD 4 0 ≠ 0 := by
  have inv := inv_reach ok hq h
  have hmem : ∀ {i : Instr}, (i = .call ∨ i = .call2) → i.pops ≤ m.stack.length →
      m.mem.get (toInt64 (back m.stack 3)) (toInt64 (back m.stack 4)) = none →
      5 ≤ m.stack.length ∧ m.stack.getD 3 0 + m.stack.getD 4 0 > m.mem.store.length ∧ m.stack.getD 4 0 ≠ 0 := by
    intro i hi hp hn
    have h5 : 5 ≤ m.stack.length := by rcases hi with rfl | rfl <;> simpa [Instr.pops] using hp
    have hb3 := inv.wide.words _ (back_mem (by omega : 3 < m.stack.length))
    have hb4 := inv.wide.words _ (back_mem (by omega : 4 < m.stack.length))
    unfold back at hb3 hb4 hn
    refine ⟨h5, ?_, ?_⟩
    · by_contra hc
      rw [get_covered inv.small inv.cap] at hn
      · simp at hn
      · by_cases hz : m.stack.getD 4 0 = 0
        · exact Or.inl hz
        · exact Or.inr ⟨hb3.1, by have := hb4.1; omega, by omega⟩
    · intro hz
      rw [get_covered inv.small inv.cap (Or.inl hz)] at hn
      simp at hn
  rcases step_fired (e := e) (m := m) with ⟨a, b, hc, -⟩ | ⟨-, i, sz, hd, hp, hsz, hg⟩ | ⟨i, sz, c, flag, mem, touched, m1, hf⟩
  · rw [hs] at hc; simp at hc
  · obtain ⟨hi, hn⟩ := gasCost_panic hg
    exact ⟨decode_call hd hi, hmem hi hp hn⟩
  · have hch := fired_charged ok hq inv hf
    obtain ⟨hst, hpc, hsto, -⟩ := hf.stack
    have hpanic : execute e i m1 = .panic := by
      have := hf.stepEq
      rw [hs] at this
      cases hx : execute e i m1 with
      | panic => rfl
      | err x => rw [hx] at this; simp [finish] at this
      | next x => rw [hx] at this; simp [finish] at this
      | done x y => rw [hx] at this; simp only [finish, Step.stop.injEq] at this; split at this <;> simp at this
    exfalso
    have hdup : ∀ n, i = .dup n → 1 ≤ n := by
      rintro n rfl; exact decode_dup hf.dec
    by_cases hi : i = .call2
    · subst hi
      have hz : sz = 0 := by simpa [memorySize, Instr.memSize] using hf.size.symm
      subst hz
      obtain ⟨⟨g, hg, -⟩, -, -, d, hd⟩ := gasCall_fact (show gasCall e m 0 = _ from hf.gas)
      rw [memoryGasCost_zero] at hg
      simp only [Option.some.injEq, Prod.mk.injEq] at hg
      have hmm : m1.mem = m.mem := by
        rw [hf.stack.2.2.2.2.2.1, if_neg (by omega)]; exact hg.2.symm
      have hp := hf.pops
      simp only [Instr.pops] at hp
      obtain ⟨a, b, c', d', f, t, hss⟩ := cons5 hp
      simp only [execute, execCall2] at hpanic
      have hcall : execCall e m1 ≠ .panic := by
        unfold execCall
        rw [hst, hss]; dsimp only
        split
        · simp
        · rw [hss] at hd
          simp only [back, List.getD_cons_succ, List.getD_cons_zero] at hd
          rw [hmm, hd]; simp
      split at hpanic
      · simp at hpanic
      · exact hcall hpanic
    · refine execute_no_panic ok (by rw [hst]; exact hf.pops) (by rw [hst]; exact inv.wide.words)
        ((memory_paid_partial ok hq h hf).1 hi) hch.small hch.cap hdup hpanic

/-- The same for a whole run: it ends with a result, an error or a revert, unless such a call is made. -/
theorem run_crash {e : Env} (ok : e.Ok) {q : Nat} (hq : q < 2 ^ 32) {n : Nat} {m' : Machine}
    (h : run e n (init q) = some (m', .panic)) :
    ∃ m, Reach e (init q) m ∧ (getOp e.code m.pc = 0xf1 ∨ getOp e.code m.pc = 0xf2) ∧
      m.stack.getD 3 0 + m.stack.getD 4 0 > m.mem.store.length := by
  have key : ∀ (n : Nat) (m : Machine), Reach e (init q) m → run e n m = some (m', .panic) →
      ∃ m, Reach e (init q) m ∧ step e m = .stop m' .panic := by
    intro n
    induction n with
    | zero => intro m _ h; simp [run] at h
    | succ n ih =>
      intro m hr h
      unfold run at h
      cases hs : step e m with
      | stop a b =>
        rw [hs] at h
        simp only [Option.some.injEq, Prod.mk.injEq] at h
        obtain ⟨rfl, rfl⟩ := h
        exact ⟨m, hr, hs⟩
      | next a =>
        rw [hs] at h
        exact ih a (hr.next hs) h
  obtain ⟨m, h1, h2⟩ := key n _ .here h
  obtain ⟨h3, -, h4, -⟩ := crash_only_in_calls ok hq h1 h2
  exact ⟨m, h1, h3, h4⟩

/-! ### Only the range is written -/

/-- **C09.** No byte of the memory outside the range of the instruction is changed. -/
theorem memory_frame {e : Env} {i : Instr} {m m2 : Machine} (hw : ∀ x ∈ m.stack, IsWord x) (hc : Covered i m)
    (hl : m.mem.store.length < 2 ^ 40) (h : execute e i m = .next m2) (k : Nat)
    (hk : (k : Int) < (i.range m.stack).1 ∨ (i.range m.stack).1 + (i.range m.stack).2 ≤ k) :
    m2.mem.store[k]? = m.mem.store[k]? := by
  have copy : ∀ {src : Bytes} {a b c : Int} {t : List Int}, m.stack = a :: b :: c :: t →
      (c = 0 ∨ (0 ≤ a ∧ 0 < c ∧ a + c ≤ m.mem.store.length)) → ((k : Int) < a ∨ a + c ≤ k) → execCopy m src = .next m2 →
      m2.mem.store[k]? = m.mem.store[k]? := by
    intro src a b c t hs hc hk h
    simp only [execCopy, hs] at h
    rw [set_covered hl hc] at h
    simp only [Exec.next.injEq] at h
    subst h
    dsimp only
    split
    · rfl
    · rename_i hne
      have hl2 : ((getData src b c).take c.toNat).length ≤ c.toNat := List.length_take_le _ _
      dsimp only
      rw [splice_get (by omega), if_neg (by omega)]
  cases i with
  | calldatacopy =>
    obtain ⟨a, b, c, t, hs⟩ : ∃ a b c t, m.stack = a :: b :: c :: t := by
      simp only [execute, execCopy] at h
      split at h
      · exact ⟨_, _, _, _, by assumption⟩
      · simp at h
    unfold Covered at hc; rw [hs] at hc hk
    exact copy hs hc hk h
  | codecopy =>
    obtain ⟨a, b, c, t, hs⟩ : ∃ a b c t, m.stack = a :: b :: c :: t := by
      simp only [execute, execCopy] at h
      split at h
      · exact ⟨_, _, _, _, by assumption⟩
      · simp at h
    unfold Covered at hc; rw [hs] at hc hk
    exact copy hs hc hk h
  | returndatacopy =>
    simp only [execute, execReturnDataCopy] at h
    split at h
    · rename_i a b c t hs
      unfold Covered at hc; rw [hs] at hc hk
      dsimp only [Instr.range] at hc hk
      split at h
      · simp at h
      · rw [set_covered hl hc] at h
        simp only [Exec.next.injEq] at h
        subst h
        dsimp only
        split
        · rfl
        · simp [splice]
    · simp at h
  | mstore =>
    simp only [execute, execMstore] at h
    split at h
    · rename_i a b t hs
      unfold Covered at hc; rw [hs] at hc hk
      dsimp only [Instr.range] at hc hk
      have ha := hw a (by simp [hs])
      unfold Mem.set32 at h
      rw [toUint64_small ha.1 (by omega), if_neg (by omega)] at h
      simp only [Exec.next.injEq] at h
      subst h
      dsimp only
      have h32 := Verif.Bytes.be_length 32 b.natAbs
      rw [splice_get (by omega), if_neg (by omega)]
    · simp at h
  | mstore8 =>
    simp only [execute, execMstore8] at h
    split at h
    · rename_i a b t hs
      unfold Covered at hc; rw [hs] at hc hk
      dsimp only [Instr.range] at hc hk
      have ha := hw a (by simp [hs])
      rw [toInt64_small ha.1 (by omega), if_pos (by omega)] at h
      simp only [Exec.next.injEq] at h
      subst h
      dsimp only
      rw [splice_get (by simp; omega), if_neg (by simp; omega)]
    · simp at h
  | call2 =>
    simp only [execute, execCall2] at h
    split at h
    · rename_i m' hc
      simp only [Exec.next.injEq] at h; subst h
      simp only [execCall] at hc
      repeat' split at hc
      all_goals first
        | (simp only [Exec.next.injEq] at hc; subst hc; rfl)
        | simp at hc
    · rename_i hc
      exact absurd h (hc _)
  | _ =>
    simp only [execute, execTop, execHash, execMload, execSload, execJump, execJumpi, jumpTo,
      execSstore, execPush, execDup, execSwap, execLog, execCall, execReturn, execRevert] at h
    repeat' split at h
    all_goals first
      | (simp only [Exec.next.injEq] at h; subst h; rfl)
      | simp at h

end Verif.Evm

import Verif.Evm.RefProps

/-! # C43: every step and every run follows the reference machine -/

namespace Verif.Evm

open Verif.Bytes (Bytes num be)
open Verif.Evm.Word

/-- What an execution function did is what the reference machine does. -/
def Matches (e : Env) (i : Instr) : Exec → Ref.Outcome → Prop
  | .next m2, o => o = .next (abs e (if i.jumps then m2 else { m2 with pc := m2.pc + 1 }))
  | .done m2 ret, o => o = if reverts e i then .reverted ret else .returned (abs e m2) ret
  | .err _, o => o = .fault
  | .panic, _ => False

theorem abs_goto {e : Env} (ok : e.Ok) {i : Instr} (hi : i.jumps = true) {m : Machine} {pos : Int} (hp : IsWord pos)
    (s : List Int) : Matches e i (jumpTo e m pos s) (Ref.goto e (abs e m) (toW pos) (s.map toW)) := by
  obtain ⟨b, hb, hd⟩ := hasDest_iff (code := e.code) hp.1 ok.code
  unfold jumpTo Ref.goto
  rw [hb, toW_toNat hp]
  cases b with
  | true =>
    rw [if_pos (hd.mp rfl)]
    have hlt : pos.toNat < e.code.length := (hd.mp rfl).1
    have := ok.code
    have := hp.1
    simp only [Matches, hi, if_true]
    rw [toUint64_small hp.1 (by omega)]
    rfl
  | false =>
    rw [if_neg (fun h => by simpa using hd.mpr h)]
    rfl

theorem act_refines {e : Env} (ok : e.Ok) {i : Instr} {m : Machine} (hp : i.pops ≤ m.stack.length)
    (hw : ∀ x ∈ m.stack, IsWord x) (hc : Covered i m) (hl : m.mem.store.length < 2 ^ 40)
    (hcap : m.mem.store.length ≤ m.mem.cap) (hdup : ∀ n, i = .dup n → 1 ≤ n) (hswap : ∀ n, i = .swap n → 1 ≤ n)
    (hd : ¬ (i = .bin .sar ∧ 256 ≤ m.stack.getD 0 0 ∧ m.stack.getD 1 0 = 0)) :
    Matches e i (execute e i m) (Ref.act e i (abs e m)) := by
  have stk : (abs e m).stack = m.stack.map toW := rfl
  have call : ∀ {a b c o n : Int} {s : List Int}, m.stack = a :: b :: c :: o :: n :: s →
      (n = 0 ∨ (0 ≤ o ∧ 0 < n ∧ o + n ≤ m.mem.store.length)) →
      m.mem.get (toInt64 o) (toInt64 n) = some ((m.mem.store.drop o.toNat).take n.toNat) ∧
      requestOf m.stack ((m.mem.store.drop o.toNat).take n.toNat) =
        Ref.request (abs e m) (toW a) (toW b) (toW c) (toW o) (toW n) := by
    intro a b c o n s hs h
    have ha := hw a (by simp [hs])
    have hb := hw b (by simp [hs])
    have hcc := hw c (by simp [hs])
    have ho := hw o (by simp [hs])
    have hn := hw n (by simp [hs])
    refine ⟨get_covered hl hcap h, ?_⟩
    unfold requestOf Ref.request
    rw [abs_read e m (by rw [toW_toNat ho, toW_toNat hn]; omega), toW_toNat ho, toW_toNat hn, hs]
    simp only [back, List.getD_cons_zero, List.getD_cons_succ, bigToFixed_eq ha, bigToFixed_eq hb, toW_toNat hcc,
      Request.mk.injEq, true_and, and_true]
    have := hcc.1
    omega
  have get : ∀ {o n : Int}, IsWord o → IsWord n → (n = 0 ∨ (0 ≤ o ∧ 0 < n ∧ o + n ≤ m.mem.store.length)) →
      m.mem.get (toInt64 o) (toInt64 n) = some ((abs e m).read (toW o).toNat (toW n).toNat) := by
    intro o n ho hn h
    rw [get_covered hl hcap h, abs_read e m (by rw [toW_toNat ho, toW_toNat hn]; omega), toW_toNat ho, toW_toNat hn]
  have hash : ∀ {f : Bytes → Bytes} {a b : Int} {t : List Int}, m.stack = a :: b :: t →
      (b = 0 ∨ (0 ≤ a ∧ 0 < b ∧ a + b ≤ m.mem.store.length)) → i.jumps = false →
      Matches e i (execHash m f)
        ((abs e m).with (Ref.wordOf (f ((abs e m).read (toW a).toNat (toW b).toNat)) :: t.map toW)) := by
    intro f a b t hs h hj
    simp only [execHash, hs]
    rw [get (hw a (by simp [hs])) (hw b (by simp [hs])) h]
    simp only [Matches, hj, Bool.false_eq_true, if_false, Ref.State.with, abs, List.map_cons, toW_num]
  have copy : ∀ {src : Bytes} {a b c : Int} {t : List Int}, m.stack = a :: b :: c :: t →
      (c = 0 ∨ (0 ≤ a ∧ 0 < c ∧ a + c ≤ m.mem.store.length)) → i.jumps = false →
      Matches e i (execCopy m src)
        (((abs e m).write (toW a).toNat (Ref.slice src (toW b).toNat (toW c).toNat)).with (t.map toW)) := by
    intro src a b c t hs h hj
    have ha := hw a (by simp [hs])
    have hb := hw b (by simp [hs])
    have hcw := hw c (by simp [hs])
    simp only [execCopy, hs]
    rw [set_covered hl h]
    simp only [Matches, hj, Bool.false_eq_true, if_false, Ref.State.with]
    rw [toW_toNat ha, toW_toNat hb, toW_toNat hcw]
    rcases h with rfl | ⟨h0, h1, h2⟩
    · rw [if_pos rfl]
      have : Ref.slice src b.toNat (0 : Int).toNat = [] := rfl
      rw [this, write_nil]
      rfl
    · rw [if_neg (by omega), getData_eq hb.1 h1.le (by omega),
        List.take_of_length_le (by rw [slice_length])]
      have := abs_splice e m (o := a.toNat) (b := Ref.slice src b.toNat c.toNat) (by rw [slice_length]; omega)
        (c := m.mem.cap) (l := m.mem.lastGas)
      rw [← this]
      rfl
  have top : ∀ {n : Nat} {f : List Int → Int}, n ≤ m.stack.length → i.jumps = false →
      Matches e i (execTop m n f) ((abs e m).with (toW (f (m.stack.take n)) :: (m.stack.drop n).map toW)) := by
    intro n f hn hj
    simp only [execTop, if_neg (not_lt.mpr hn), Matches, hj, Bool.false_eq_true, if_false, Ref.State.with, abs, List.map_cons]
  cases i with
  | stop => simp [execute, Matches, Ref.act, reverts]
  | bin b =>
    obtain ⟨x, y, t, hs⟩ := cons2 hp
    have hb := binary_refines b (hw x (by simp [hs])) (hw y (by simp [hs])) (by
      rintro ⟨rfl, h1, h2⟩
      exact hd ⟨rfl, by simpa [hs] using h1, by simpa [hs] using h2⟩)
    have ht := top (n := 2) (f := fun s => b.eval (back s 0) (back s 1)) hp rfl
    rw [hs] at ht
    simp only [execute, Ref.act, stk, hs, List.map_cons]
    rw [← hb]
    exact ht
  | addmod =>
    obtain ⟨x, y, z, t, hs⟩ := cons3 hp
    obtain ⟨x', hx⟩ := (hw x (by simp [hs])).val
    obtain ⟨y', hy⟩ := (hw y (by simp [hs])).val
    obtain ⟨z', hz⟩ := (hw z (by simp [hs])).val
    subst hx hy hz
    have hb : toW (opAddmod (val x') (val y') (val z')) =
        if z' = 0 then 0 else BitVec.ofNat 256 ((x'.toNat + y'.toNat) % z'.toNat) := by
      rw [opAddmod_spec]; split
      · exact toW_zero
      · exact toW_nat _
    have ht := top (n := 3) (f := fun s => opAddmod (back s 0) (back s 1) (back s 2)) hp rfl
    rw [hs] at ht
    simp only [execute, Ref.act, stk, hs, List.map_cons, toW_val]
    rw [← hb]
    exact ht
  | mulmod =>
    obtain ⟨x, y, z, t, hs⟩ := cons3 hp
    obtain ⟨x', hx⟩ := (hw x (by simp [hs])).val
    obtain ⟨y', hy⟩ := (hw y (by simp [hs])).val
    obtain ⟨z', hz⟩ := (hw z (by simp [hs])).val
    subst hx hy hz
    have hb : toW (opMulmod (val x') (val y') (val z')) =
        if z' = 0 then 0 else BitVec.ofNat 256 ((x'.toNat * y'.toNat) % z'.toNat) := by
      rw [opMulmod_spec]; split
      · exact toW_zero
      · exact toW_nat _
    have ht := top (n := 3) (f := fun s => opMulmod (back s 0) (back s 1) (back s 2)) hp rfl
    rw [hs] at ht
    simp only [execute, Ref.act, stk, hs, List.map_cons, toW_val]
    rw [← hb]
    exact ht
  | iszero =>
    obtain ⟨x, t, hs⟩ := cons1 hp
    obtain ⟨x', hx⟩ := (hw x (by simp [hs])).val
    subst hx
    have hb : toW (opIszero (val x')) = Ref.truth (decide (x' = 0)) := by rw [opIszero_spec, toW_flag]
    simp [execute, execTop, hs, Matches, Instr.jumps, Ref.act, abs, Ref.State.with, back, hb, toW_val]
  | not =>
    obtain ⟨x, t, hs⟩ := cons1 hp
    obtain ⟨x', hx⟩ := (hw x (by simp [hs])).val
    subst hx
    have hb : toW (opNot (val x')) = ~~~ x' := by rw [opNot_spec, toW_val]
    simp [execute, execTop, hs, Matches, Instr.jumps, Ref.act, abs, Ref.State.with, back, hb, toW_val]
  | src s =>
    simp [execute, execTop, Matches, Instr.jumps, Ref.act, abs, Ref.State.with, srcWord_eq]
  | balance =>
    obtain ⟨x, t, hs⟩ := cons1 hp
    simp [execute, execTop, hs, Matches, Instr.jumps, Ref.act, abs, Ref.State.with, back,
      bigToFixed_eq (hw x (by simp [hs]))]
  | calldataload =>
    obtain ⟨x, t, hs⟩ := cons1 hp
    have hx := hw x (by simp [hs])
    simp only [execute, execTop, hs, Matches, Instr.jumps, Ref.act, abs, Ref.State.with, back, List.map_cons]
    rw [if_neg (by simp)]
    simp only [Matches, Instr.jumps, Bool.false_eq_true, if_false, abs, List.take, List.drop, List.getD_cons_zero, List.map_cons]
    rw [getData_eq hx.1 (by norm_num) (by norm_num), toW_toNat hx]
    rw [← toW_num]
    rfl
  | pc => simp [execute, execTop, Matches, Instr.jumps, Ref.act, abs, Ref.State.with, toW_nat]
  | msize => simp [execute, execTop, Matches, Instr.jumps, Ref.act, abs, Ref.State.with, toW_nat]
  | sha3 =>
    obtain ⟨a, b, t, hs⟩ := cons2 hp
    unfold Covered at hc; rw [hs] at hc
    have := hash (f := e.keccak) hs hc rfl
    simpa only [execute, Ref.act, stk, hs, List.map_cons] using this
  | blake2b =>
    obtain ⟨a, b, t, hs⟩ := cons2 hp
    unfold Covered at hc; rw [hs] at hc
    have := hash (f := e.blake) hs hc rfl
    simpa only [execute, Ref.act, stk, hs, List.map_cons] using this
  | calldatacopy =>
    obtain ⟨a, b, c, t, hs⟩ := cons3 hp
    unfold Covered at hc; rw [hs] at hc
    have := copy (src := e.data) hs hc rfl
    simpa only [execute, Ref.act, stk, hs, List.map_cons] using this
  | codecopy =>
    obtain ⟨a, b, c, t, hs⟩ := cons3 hp
    unfold Covered at hc; rw [hs] at hc
    have := copy (src := e.code) hs hc rfl
    simpa only [execute, Ref.act, stk, hs, List.map_cons] using this
  | returndatacopy =>
    obtain ⟨a, b, c, t, hs⟩ := cons3 hp
    have hb := hw b (by simp [hs])
    have hcw := hw c (by simp [hs])
    simp only [execute, execReturnDataCopy, Ref.act, stk, hs, List.map_cons]
    rw [toW_toNat hb, toW_toNat hcw]
    have := hb.1
    have := hcw.1
    by_cases h0 : b.toNat + c.toNat = 0
    · have hb0 : b = 0 := by omega
      have hc0 : c = 0 := by omega
      subst hb0 hc0
      have e0 : toUint64 0 = 0 := by decide
      rw [if_pos h0, if_neg (by simp [e0])]
      simp [e0, Mem.set, Matches, Instr.jumps, abs, Ref.State.with]
    · rw [if_neg h0, if_pos]
      · rfl
      · by_cases hbig : b + c ≥ 2 ^ 64
        · exact Or.inl hbig
        · right
          unfold toUint64
          rw [Int.emod_eq_of_lt (by omega) (by omega)]
          omega
  | pop =>
    obtain ⟨a, t, hs⟩ := cons1 hp
    simp [execute, hs, Matches, Instr.jumps, Ref.act, abs, Ref.State.with]
  | mload =>
    obtain ⟨a, t, hs⟩ := cons1 hp
    unfold Covered at hc; rw [hs] at hc
    have ha := hw a (by simp [hs])
    have := get (o := a) (n := 32) ha (by constructor <;> norm_num) hc
    have e32 : toInt64 32 = 32 := by decide
    have e32' : (toW 32).toNat = 32 := by decide +kernel
    rw [e32, e32'] at this
    simp only [execute, execMload, Ref.act, stk, hs, List.map_cons]
    rw [this]
    simp only [Matches, Instr.jumps, Bool.false_eq_true, if_false, Ref.State.with, abs, List.map_cons, toW_num]
  | mstore =>
    obtain ⟨a, b, t, hs⟩ := cons2 hp
    unfold Covered at hc; rw [hs] at hc
    dsimp only [Instr.range] at hc
    have ha := hw a (by simp [hs])
    have hb := hw b (by simp [hs])
    simp only [execute, execMstore, Ref.act, stk, hs, List.map_cons]
    unfold Mem.set32
    rw [toUint64_small ha.1 (by omega), if_neg (by omega), toW_toNat ha, toW_toNat hb]
    have h32 := Verif.Bytes.be_length 32 b.toNat
    have := abs_splice e m (o := a.toNat) (b := be 32 b.toNat) (by omega) (c := m.mem.cap) (l := m.mem.lastGas)
    simp only [Matches, Instr.jumps, Bool.false_eq_true, if_false, Ref.State.with]
    rw [← this, show b.natAbs = b.toNat by have := hb.1; omega]
    rfl
  | mstore8 =>
    obtain ⟨a, b, t, hs⟩ := cons2 hp
    unfold Covered at hc; rw [hs] at hc
    dsimp only [Instr.range] at hc
    have ha := hw a (by simp [hs])
    have hb := hw b (by simp [hs])
    simp only [execute, execMstore8, Ref.act, stk, hs, List.map_cons]
    rw [toInt64_small ha.1 (by omega), if_pos (by omega), toW_toNat ha, toW_toNat hb]
    have hbyte : UInt8.ofNat (toInt64 b % 256).toNat = UInt8.ofNat b.toNat := by
      apply UInt8.toNat_inj.mp
      rw [UInt8.toNat_ofNat', UInt8.toNat_ofNat']
      have := hb.1
      unfold toInt64
      split <;> omega
    rw [hbyte]
    have := abs_splice e m (o := a.toNat) (b := [UInt8.ofNat b.toNat]) (by simp; omega) (c := m.mem.cap) (l := m.mem.lastGas)
    simp only [Matches, Instr.jumps, Bool.false_eq_true, if_false, Ref.State.with]
    rw [← this]
    rfl
  | sload =>
    obtain ⟨a, t, hs⟩ := cons1 hp
    have ha := hw a (by simp [hs])
    simp only [execute, execSload, Ref.act, stk, hs, List.map_cons]
    simp only [Matches, Instr.jumps, Bool.false_eq_true, if_false, Ref.State.with, abs, List.map_cons, toW_num, toW_toNat ha]
  | sstore =>
    obtain ⟨a, b, t, hs⟩ := cons2 hp
    have ha := hw a (by simp [hs])
    have hb := hw b (by simp [hs])
    simp only [execute, execSstore, Ref.act, stk, hs, List.map_cons]
    cases e.offchain with
    | true => simp only [if_true]; rfl
    | false =>
      simp only [Bool.false_eq_true, if_false, Matches, Instr.jumps, Ref.State.with, abs, abs_store ha hb]
  | jump =>
    obtain ⟨a, t, hs⟩ := cons1 hp
    simp only [execute, execJump, Ref.act, stk, hs, List.map_cons]
    exact abs_goto ok rfl (hw a (by simp [hs])) t
  | jumpi =>
    obtain ⟨a, b, t, hs⟩ := cons2 hp
    have hb := hw b (by simp [hs])
    simp only [execute, execJumpi, Ref.act, stk, hs, List.map_cons]
    by_cases h0 : b = 0
    · subst h0
      rw [if_neg (by simp), if_pos toW_zero]
      simp [Matches, Instr.jumps, Ref.State.with, abs]
    · rw [if_pos h0, if_neg]
      · exact abs_goto ok rfl (hw a (by simp [hs])) t
      · intro h
        apply h0
        have := val_toW hb
        rw [h] at this
        rw [← this]; rfl
  | jumpdest => simp [execute, Matches, Instr.jumps, Ref.act, abs, Ref.State.with]
  | push n =>
    simp only [execute, execPush, Ref.act, Matches, Instr.jumps, Bool.false_eq_true, if_false, abs, List.map_cons,
      toW_num]
    rw [slice_eq e.code (m.pc + 1) n _ rfl]
    congr 2
    omega
  | dup n =>
    have := hdup n rfl
    simp only [Instr.pops] at hp
    simp only [execute, execDup, Ref.act, stk]
    rw [if_neg (by omega), List.getElem?_eq_getElem (by omega), if_pos (by simpa using hp)]
    simp only [Matches, Instr.jumps, Bool.false_eq_true, if_false, Ref.State.with, abs, List.map_cons]
    rw [List.getD_eq_getElem _ _ (by simp; omega)]
    simp
  | swap n =>
    have := hswap n rfl
    simp only [Instr.pops] at hp
    obtain ⟨x, t, hs⟩ := cons1 (by omega : 1 ≤ m.stack.length)
    simp only [execute, execSwap, Ref.act, stk, hs, List.map_cons]
    rw [hs] at hp
    simp only [List.length_cons] at hp
    obtain ⟨k, rfl⟩ : ∃ k, n = k + 1 := ⟨n - 1, by omega⟩
    rw [if_pos (by simp; omega)]
    simp only [List.getElem?_cons_zero, List.getElem?_cons_succ]
    rw [List.getElem?_eq_getElem (by omega)]
    simp only [Matches, Instr.jumps, Bool.false_eq_true, if_false, Ref.State.with, abs, List.set_cons_succ,
      List.set_cons_zero, List.map_cons, Nat.add_sub_cancel]
    rw [List.getD_eq_getElem _ _ (by simp; omega)]
    congr 3
    · simp
    · rw [List.set_eq_take_append_cons_drop, if_pos (by omega)]
      simp
  | log n =>
    simp only [Instr.pops] at hp
    obtain ⟨a, b, t, hs⟩ := cons2 (by omega : 2 ≤ m.stack.length)
    unfold Covered at hc; rw [hs] at hc
    have hg := get (hw a (by simp [hs])) (hw b (by simp [hs])) hc
    simp only [execute, execLog, Ref.act, stk, hs, List.map_cons]
    rw [hs] at hp
    simp only [List.length_cons] at hp
    have hn1 : ¬ t.length < n := by omega
    have hn2 : ¬ (List.map toW t).length < n := by rw [List.length_map]; omega
    rw [if_neg hn1, if_neg hn2]
    cases ho : e.offchain with
    | true =>
      simp only [if_true, Matches, Instr.jumps, Bool.false_eq_true, if_false, Ref.State.with, abs, List.map_drop]
    | false =>
      simp only [Bool.false_eq_true, if_false]
      rw [hg]
      simp only [Matches, Instr.jumps, Bool.false_eq_true, if_false, Ref.State.with]
      have htop : ((t.take n).map Int.toNat).map (BitVec.ofNat 256) = (t.map toW).take n := by
        rw [← List.map_take, List.map_map]
        apply List.map_congr_left
        intro x hx
        have hx' := hw x (by simp [hs, List.mem_of_mem_take hx])
        show BitVec.ofNat 256 x.toNat = toW x
        rw [← toW_nat, Int.toNat_of_nonneg hx'.1]
      simp only [abs, List.map_append, List.map_cons, List.map_nil, htop, List.map_drop]
  | call =>
    obtain ⟨a, b, c, d, f, t, hs⟩ := cons5 hp
    unfold Covered at hc; rw [hs] at hc
    obtain ⟨h1, h2⟩ := call hs hc
    simp only [execute, execCall, Ref.act, stk, hs, List.map_cons]
    rw [hs] at h2
    cases ho : e.offchain with
    | true => simp only [if_true, Matches, Instr.jumps, Bool.false_eq_true, if_false, Ref.State.with, abs]
    | false =>
      simp only [Bool.false_eq_true, if_false]
      rw [h1]
      simp only [Matches, Instr.jumps, Bool.false_eq_true, if_false, Ref.State.with, h2]
      rfl
  | call2 =>
    obtain ⟨a, b, c, d, f, t, hs⟩ := cons5 hp
    unfold Covered at hc; rw [hs] at hc
    obtain ⟨h1, h2⟩ := call hs hc
    simp only [execute, execCall2, execCall, Ref.act, stk, hs, List.map_cons]
    rw [hs] at h2
    cases ho : e.offchain with
    | true =>
      simp only [if_true, Matches, Instr.jumps, Bool.false_eq_true, if_false, Ref.State.with, abs, List.map_cons]
      rw [← toW_zero]
    | false =>
      simp only [Bool.false_eq_true, if_false]
      rw [h1]
      simp only [Matches, Instr.jumps, Bool.false_eq_true, if_false, Ref.State.with, h2]
      rfl
  | ret =>
    obtain ⟨a, b, t, hs⟩ := cons2 hp
    unfold Covered at hc; rw [hs] at hc
    have hg := get (hw a (by simp [hs])) (hw b (by simp [hs])) hc
    simp only [execute, execReturn, Ref.act, stk, hs, List.map_cons]
    rw [hg]
    simp only [Matches, reverts]
    rfl
  | revert =>
    obtain ⟨a, b, t, hs⟩ := cons2 hp
    unfold Covered at hc; rw [hs] at hc
    have hg := get (hw a (by simp [hs])) (hw b (by simp [hs])) hc
    simp only [execute, execRevert, execReturn, Ref.act, stk, hs, List.map_cons]
    cases ho : e.offchain with
    | true => simp only [if_true, Matches, reverts, ho]; rfl
    | false =>
      simp only [Bool.false_eq_true, if_false]
      rw [hg]
      simp [Matches, reverts, ho]

theorem memoryGasCost_store {t : QuotaTable} {m mem : Mem} {sz g : Nat} (h : memoryGasCost t m sz = some (g, mem)) :
    mem.store = m.store := by
  unfold memoryGasCost at h
  repeat' split at h
  all_goals first
    | (simp only [Option.some.injEq, Prod.mk.injEq] at h; obtain ⟨-, rfl⟩ := h; rfl)
    | simp at h

theorem resize_getD (e : Env) (m : Mem) (sz k : Nat) : (m.resize e sz).store.getD k 0 = m.store.getD k 0 := by
  unfold Mem.resize
  split
  · exact getD_append_zeros _ _ _
  · rfl

theorem map_val_toW {s : List Int} (h : ∀ x ∈ s, IsWord x) : (s.map toW).map val = s := by
  rw [List.map_map]
  conv_rhs => rw [← List.map_id s]
  exact List.map_congr_left (fun x hx => val_toW (h x hx))

/-- The state in which an instruction executes is the state before with the memory range of the instruction in use. -/
theorem fired_abs {e : Env} (ok : e.Ok) {q : Nat} (hq : q < 2 ^ 32) {m : Machine} (inv : Inv e q m) {i : Instr}
    {sz c : Nat} {flag : Bool} {mem : Mem} {touched : List Nat} {m1 : Machine}
    (hf : Fired e m i sz c flag mem touched m1) (hd : ¬ Differs e m) :
    abs e m1 = (abs e m).touch (i.range ((abs e m).stack.map val)).1.toNat (i.range ((abs e m).stack.map val)).2.toNat := by
  have hch := fired_charged ok hq inv hf
  obtain ⟨⟨g, hg, -⟩, -⟩ := gasCost_priced hf.size hf.gas
  obtain ⟨hst, hpc, hsto, htou, hsend, hmem, hlog⟩ := hf.stack
  have hstk : (abs e m).stack.map val = m.stack := map_val_toW inv.wide.words
  rw [hstk]
  obtain ⟨w, hw32, -⟩ := inv.memory
  have hsz := abs_touch (e := e) inv.wide.words hf.pops hf.size hch.bound (by
    rintro rfl
    have hp := hf.pops
    simp only [Instr.pops] at hp
    obtain ⟨a, b, c', d, f, t, hss⟩ := cons5 hp
    by_contra hcc
    push Not at hcc
    apply hd
    right
    refine ⟨((decode_iff (getOp_lt _ _)).mp hf.dec).1.symm, ?_, ?_⟩
    · rw [hss] at hcc ⊢; simpa [Instr.range] using hcc.1
    · rw [hss] at hcc ⊢
      have := hcc.2
      simpa [Instr.range] using this) ⟨w, hw32⟩
  have hm : (fun k => m1.mem.store.getD k 0) = fun k => m.mem.store.getD k 0 := by
    funext k
    rw [hmem]
    split
    · rw [resize_getD, memoryGasCost_store hg]
    · rw [memoryGasCost_store hg]
  have hlen := hch.size
  rw [hsz] at hlen
  unfold Ref.State.touch at hlen ⊢
  unfold abs at hlen ⊢
  simp only [hm, hst, hpc, hsto, hsend, hlog, Ref.State.mk.injEq, and_true, true_and]
  exact hlen

/-- One instruction, as executed by the interpreter and by the reference machine. -/
theorem fired_matches {e : Env} (ok : e.Ok) {q : Nat} (hq : q < 2 ^ 32) {m : Machine} (h : Reach e (init q) m) {i : Instr}
    {sz c : Nat} {flag : Bool} {mem : Mem} {touched : List Nat} {m1 : Machine}
    (hf : Fired e m i sz c flag mem touched m1) (hd : ¬ Differs e m) :
    Ref.Fetch e (abs e m) i ∧ Matches e i (execute e i m1) (Ref.exec e i (abs e m)) := by
  have inv := inv_reach ok hq h
  have hch := fired_charged ok hq inv hf
  obtain ⟨hst, hpc, hsto, htou, hsend, hmem, hlog⟩ := hf.stack
  have hdec := (decode_iff (getOp_lt e.code m.pc)).mp hf.dec
  refine ⟨hdec, ?_⟩
  unfold Ref.exec
  rw [← fired_abs ok hq inv hf hd]
  have hcov : Covered i m1 := by
    by_cases hi : i = .call2
    · subst hi
      have hp := hf.pops
      simp only [Instr.pops] at hp
      obtain ⟨a, b, c', d, f, t, hss⟩ := cons5 hp
      have hdd := inv.wide.words d (by simp [hss])
      have hff := inv.wide.words f (by simp [hss])
      unfold Covered
      rw [hst, hss]
      dsimp only [Instr.range]
      by_contra hcc
      apply hd
      right
      have h1 := hdd.1
      have h2 := hff.1
      have h3 := hch.size
      refine ⟨hdec.1.symm, ?_, ?_⟩
      · rw [hss]; simp only [List.getD_cons_succ, List.getD_cons_zero]; omega
      · rw [hss]; simp only [List.getD_cons_succ, List.getD_cons_zero]; omega
    · exact (memory_paid_partial ok hq h hf).1 hi
  refine act_refines ok (by rw [hst]; exact hf.pops) (by rw [hst]; exact inv.wide.words) hcov hch.small hch.cap
    (fun n hn => ?_) (fun n hn => ?_) ?_
  · subst hn; exact hdec.2.1
  · subst hn; exact hdec.2.1
  · rintro ⟨rfl, h1, h2⟩
    rw [hst] at h1 h2
    exact hd (Or.inl ⟨hdec.1.symm, h1, h2⟩)

/-- **C43.** Every step of the interpreter that succeeds is a step of the reference machine. -/
theorem step_refines {e : Env} (ok : e.Ok) {q : Nat} (hq : q < 2 ^ 32) {m : Machine} (h : Reach e (init q) m)
    (hd : ¬ Differs e m) {m' : Machine} (hs : step e m = .next m') :
    ∃ i, Ref.Fetch e (abs e m) i ∧ Ref.exec e i (abs e m) = .next (abs e m') := by
  obtain ⟨i, sz, c, flag, mem, touched, m1, m2, hf, hx, hm⟩ := step_next hs
  obtain ⟨h1, h2⟩ := fired_matches ok hq h hf hd
  rw [hx] at h2
  exact ⟨i, h1, by rw [hm]; exact h2⟩

/-- **C43.** A step that ends the run with a result is the end of the reference machine, with the same result; a step that
reverts reverts there, with the same data. -/
theorem stop_refines {e : Env} (ok : e.Ok) {q : Nat} (hq : q < 2 ^ 32) {m : Machine} (h : Reach e (init q) m)
    (hd : ¬ Differs e m) {m' : Machine} :
    (∀ ret, step e m = .stop m' (.ok ret) →
      ∃ i, Ref.Fetch e (abs e m) i ∧ Ref.exec e i (abs e m) = .returned (abs e m') ret) ∧
    (∀ ret, step e m = .stop m' (.reverted ret) →
      ∃ i, Ref.Fetch e (abs e m) i ∧ Ref.exec e i (abs e m) = .reverted ret) := by
  have key : ∀ r, step e m = .stop m' r → (∀ x, r ≠ .err x) → r ≠ .panic →
      ∃ i ret, Ref.Fetch e (abs e m) i ∧ r = (if reverts e i then .reverted ret else .ok ret) ∧
        Ref.exec e i (abs e m) = if reverts e i then .reverted ret else .returned (abs e m') ret := by
    intro r hs h1 h2
    rcases step_fired (e := e) (m := m) with ⟨a, b, hc, -⟩ | ⟨hc, -⟩ | ⟨i, sz, c, flag, mem, touched, m1, hf⟩
    · rw [hs] at hc
      simp only [Step.stop.injEq] at hc
      exact absurd hc.2 (h1 b)
    · rw [hs] at hc
      simp only [Step.stop.injEq] at hc
      exact absurd hc.2 h2
    · obtain ⟨hfe, hm⟩ := fired_matches ok hq h hf hd
      have heq := hf.stepEq
      rw [hs] at heq
      cases hx : execute e i m1 with
      | panic => rw [hx] at hm; exact hm.elim
      | err x =>
        rw [hx] at heq
        simp only [finish, Step.stop.injEq] at heq
        exact absurd heq.2 (h1 x)
      | next x => rw [hx] at heq; simp [finish] at heq
      | done x y =>
        rw [hx] at heq hm
        simp only [finish, Step.stop.injEq] at heq
        obtain ⟨rfl, hr⟩ := heq
        exact ⟨i, y, hfe, hr, hm⟩
  constructor
  · intro ret hs
    obtain ⟨i, ret', h1, h2, h3⟩ := key _ hs (by simp) (by simp)
    cases hr : reverts e i with
    | true => rw [hr] at h2; simp at h2
    | false =>
      rw [hr] at h2 h3
      simp only [Bool.false_eq_true, if_false, Result.ok.injEq] at h2 h3
      subst h2
      exact ⟨i, h1, h3⟩
  · intro ret hs
    obtain ⟨i, ret', h1, h2, h3⟩ := key _ hs (by simp) (by simp)
    cases hr : reverts e i with
    | false => rw [hr] at h2; simp at h2
    | true =>
      rw [hr] at h2 h3
      simp only [if_true, Result.reverted.injEq] at h2 h3
      subst h2
      exact ⟨i, h1, h3⟩

/-- The state a run begins in stands for the initial state of the reference machine. -/
theorem abs_init (e : Env) (q : Nat) : abs e (init q) = Ref.start e := by
  simp [abs, init, Ref.start, getValue]

theorem run_follows {e : Env} (ok : e.Ok) {q : Nat} (hq : q < 2 ^ 32) (hd : ∀ m, Reach e (init q) m → ¬ Differs e m)
    (n : Nat) {m : Machine} (h : Reach e (init q) m) {m' : Machine} {r : Result} (hr : run e n m = some (m', r)) :
    (∀ ret, r = .ok ret → Ref.Eval e (abs e m) (.returned (abs e m') ret)) ∧
    (∀ ret, r = .reverted ret → Ref.Eval e (abs e m) (.reverted ret)) := by
  induction n generalizing m with
  | zero => simp [run] at hr
  | succ n ih =>
    unfold run at hr
    cases hs : step e m with
    | stop a b =>
      rw [hs] at hr
      simp only [Option.some.injEq, Prod.mk.injEq] at hr
      obtain ⟨rfl, rfl⟩ := hr
      obtain ⟨h1, h2⟩ := stop_refines ok hq h (hd m h) (m' := a)
      constructor
      · rintro ret rfl
        obtain ⟨i, hf, hx⟩ := h1 ret hs
        exact .returned hf hx
      · rintro ret rfl
        obtain ⟨i, hf, hx⟩ := h2 ret hs
        exact .reverted hf hx
    | next a =>
      rw [hs] at hr
      obtain ⟨h1, h2⟩ := ih (h.next hs) hr
      obtain ⟨i, hf, hx⟩ := step_refines ok hq h (hd m h) hs
      exact ⟨fun ret hret => .step hf hx (h1 ret hret), fun ret hret => .step hf hx (h2 ret hret)⟩

/-- **C43.** A run that ends with a result ends as the reference machine does from the saved storage: with the same returned
bytes, storage, logs and requests; a run that reverts reverts there with the same data. This holds for all code, input and
storage, unless one of the two known differences comes up. -/
theorem run_refines_partial {e : Env} (ok : e.Ok) {q : Nat} (hq : q < 2 ^ 32)
    (hd : ∀ m, Reach e (init q) m → ¬ Differs e m) {n : Nat} {m' : Machine} {ret : Bytes} :
    (run e n (init q) = some (m', .ok ret) → Ref.Eval e (Ref.start e) (.returned (abs e m') ret)) ∧
    (run e n (init q) = some (m', .reverted ret) → Ref.Eval e (Ref.start e) (.reverted ret)) := by
  rw [← abs_init e q]
  exact ⟨fun h => (run_follows ok hq hd n .here h).1 ret rfl, fun h => (run_follows ok hq hd n .here h).2 ret rfl⟩

theorem fetch_unique {e : Env} {σ : Ref.State} {i j : Instr} (hi : Ref.Fetch e σ i) (hj : Ref.Fetch e σ j) : i = j := by
  have h1 := (decode_iff (set := e.set) (getOp_lt e.code σ.pc)).mpr hi
  have h2 := (decode_iff (set := e.set) (getOp_lt e.code σ.pc)).mpr hj
  rw [h1] at h2
  simpa using h2

/-- The reference machine has one outcome. -/
theorem eval_unique {e : Env} {σ : Ref.State} {r r' : Ref.Outcome} (h : Ref.Eval e σ r) (h' : Ref.Eval e σ r') : r = r' := by
  induction h with
  | returned hf hx =>
    cases h' with
    | returned hf' hx' => obtain rfl := fetch_unique hf hf'; rw [hx] at hx'; exact hx'
    | reverted hf' hx' => obtain rfl := fetch_unique hf hf'; rw [hx] at hx'; exact hx'
    | step hf' hx' _ => obtain rfl := fetch_unique hf hf'; rw [hx] at hx'; simp at hx'
  | reverted hf hx =>
    cases h' with
    | returned hf' hx' => obtain rfl := fetch_unique hf hf'; rw [hx] at hx'; exact hx'
    | reverted hf' hx' => obtain rfl := fetch_unique hf hf'; rw [hx] at hx'; exact hx'
    | step hf' hx' _ => obtain rfl := fetch_unique hf hf'; rw [hx] at hx'; simp at hx'
  | step hf hx _ ih =>
    cases h' with
    | returned hf' hx' => obtain rfl := fetch_unique hf hf'; rw [hx] at hx'; simp at hx'
    | reverted hf' hx' => obtain rfl := fetch_unique hf hf'; rw [hx] at hx'; simp at hx'
    | step hf' hx' h2 =>
      obtain rfl := fetch_unique hf hf'
      rw [hx] at hx'
      simp only [Ref.Outcome.next.injEq] at hx'
      subst hx'
      exact ih h2

end Verif.Evm

import Verif.Evm.CreateModel
import Verif.Evm.StatusProps

/-! # A contract is made under the terms that were asked for, if they are allowed -/

namespace Verif.Evm
open Verif.Bytes (Bytes)

/-! ### The data -/

/-- **All data that are long enough are of this form**, in one way. -/
theorem data_form (data : Bytes) (h : 14 ≤ data.length) : ∃ gid ty n r q code, gid.length = 10 ∧ data = createData code ty n r q gid := by
  refine ⟨data.take 10, data[10], data[11], data[12], data[13], data.drop 14, by rw [List.length_take]; omega, ?_⟩
  unfold createData
  have h1 := List.take_append_drop 10 data
  rw [List.drop_eq_getElem_cons (show 10 < data.length by omega), List.drop_eq_getElem_cons (show 10 + 1 < data.length by omega),
    List.drop_eq_getElem_cons (show 10 + 1 + 1 < data.length by omega), List.drop_eq_getElem_cons (show 10 + 1 + 1 + 1 < data.length by omega)] at h1
  exact h1.symm

theorem data_parts {gid : Bytes} (hg : gid.length = 10) (code : Bytes) (ty n r q : UInt8) :
    gidOf (createData code ty n r q gid) = gid ∧ typeOf (createData code ty n r q gid) = some ty.toNat ∧
    confirmedOf (createData code ty n r q gid) = some n.toNat ∧ seedOf (createData code ty n r q gid) = some r.toNat ∧
    ratioOf true (createData code ty n r q gid) = some q.toNat ∧ codeOf true (createData code ty n r q gid) = code ∧
    (createData code ty n r q gid).length = 14 + code.length := by
  have hat : ∀ k, (createData code ty n r q gid)[10 + k]? = ([ty] ++ ([n] ++ ([r] ++ ([q] ++ code))))[k]? := by
    intro k
    unfold createData
    rw [← hg, List.getElem?_append_right (by omega)]
    congr 1; omega
  refine ⟨?_, ?_, ?_, ?_, ?_, ?_, ?_⟩
  · exact List.take_left' hg
  · unfold typeOf byteAt; rw [hat 0]; rfl
  · unfold confirmedOf byteAt; rw [hat 1]; rfl
  · unfold seedOf byteAt; rw [hat 2]; rfl
  · unfold ratioOf byteAt; rw [if_neg (by decide), hat 3]; rfl
  · unfold codeOf createData
    rw [if_neg (by decide), show (14 : Nat) = gid.length + 4 by omega, List.drop_length_add_append]; rfl
  · unfold createData; simp only [List.length_append, List.length_singleton]; omega

/-- What is written is read back, so different requests have different data. -/
theorem data_inj {g g' code code' : Bytes} {ty ty' n n' r r' q q' : UInt8} (hg : g.length = 10) (hg' : g'.length = 10)
    (h : createData code ty n r q g = createData code' ty' n' r' q' g') : g = g' ∧ ty = ty' ∧ n = n' ∧ r = r' ∧ q = q' ∧ code = code' := by
  unfold createData at h
  obtain ⟨h1, h2⟩ := List.append_inj h (hg.trans hg'.symm)
  simp only [List.singleton_append, List.cons.injEq] at h2
  exact ⟨h1, h2.1, h2.2.1, h2.2.2.1, h2.2.2.2.1, h2.2.2.2.2⟩

/-! ### The checks -/

/-- **Data that are too short are an error**, and nothing is read out of range. -/
theorem short_refused (data : Bytes) : (data.length < 14 → checkCreate true data = some none) ∧ (data.length < 13 → checkCreate false data = some none) := by
  unfold checkCreate
  constructor
  · intro h; rw [if_pos (by simpa using h)]
  · intro h; rw [if_pos (by simpa using h)]

/-- The terms that are allowed: not the group of the snapshot chain, the one type there is, at most 75 confirmations and no more of them
with a seed than in all, a multiplier from 10 to 100, and waiting for at least one block if the code asks for the state of
the chain, or a random number, before its first trailer. -/
def Allowed (gid code : Bytes) (ty n r q : Nat) : Prop :=
  gid ≠ [0, 0, 0, 0, 0, 0, 0, 0, 0, 1] ∧ ty = 1 ∧ n ≤ 75 ∧ r ≤ n ∧ 10 ≤ q ∧ q ≤ 100 ∧
  ((∃ p, Has code [0x3b, 0x3c, 0x42, 0x43, 0xf4] p ∧ ∀ t, Trailer code t → p < t) → 0 < n) ∧
  ((∃ p, Has code [0x4a, 0x4b] p ∧ ∀ t, Trailer code t → p < t) → 0 < r)

/-- **A contract is made exactly under terms that are allowed, and they are kept as they were asked for.** -/
theorem create_exact {gid : Bytes} (hg : gid.length = 10) (code : Bytes) (ty n r q : UInt8) :
    ∃ x, checkCreate true (createData code ty n r q gid) = some x ∧
      ∀ t, x = some t ↔ Allowed gid code ty.toNat n.toNat r.toNat q.toNat ∧ t = ⟨gid, n.toNat, r.toNat, q.toNat⟩ := by
  obtain ⟨e1, e2, e3, e4, e5, e6, e7⟩ := data_parts hg code ty n r q
  obtain ⟨a, b, hc, ha, hb⟩ := containsCertain_exact code
  unfold checkCreate Allowed
  rw [e1, e2, e3, e4, e5, e6, e7, if_neg (by simp), ← ha, ← hb]
  simp only [Option.bind_some, hc]
  have hs : snapshotGid = [0, 0, 0, 0, 0, 0, 0, 0, 0, 1] := rfl
  rw [hs]
  have hno : ∀ {P : Prop}, ¬ P → ∃ x, (some none : Option (Option Terms)) = some x ∧ ∀ t, x = some t ↔ P ∧ t = ⟨gid, n.toNat, r.toNat, q.toNat⟩ := by
    intro P hP
    exact ⟨none, rfl, fun t => ⟨fun h => (by cases h), fun h => absurd h.1 hP⟩⟩
  by_cases c1 : gid = [0, 0, 0, 0, 0, 0, 0, 0, 0, 1]
  · rw [if_pos c1]; exact hno (fun h => h.1 c1)
  rw [if_neg c1]
  by_cases c2 : ty.toNat ≠ 1
  · rw [if_pos c2]; exact hno (fun h => c2 h.2.1)
  rw [if_neg c2]
  by_cases c3 : n.toNat > 75
  · rw [if_pos c3]; exact hno (fun h => by have := h.2.2.1; omega)
  rw [if_neg c3]
  by_cases c4 : q.toNat < 10 ∨ q.toNat > 100
  · rw [if_pos c4]; exact hno (fun h => by obtain ⟨-, -, -, -, h5, h6, -⟩ := h; omega)
  rw [if_neg c4, if_neg (by decide)]
  by_cases c5 : r.toNat > 75 ∨ n.toNat < r.toNat
  · rw [if_pos c5]; exact hno (fun h => by obtain ⟨-, -, h3, h4, -⟩ := h; omega)
  rw [if_neg c5]
  by_cases c6 : a = true ∧ n.toNat = 0
  · rw [if_pos c6]; exact hno (fun h => by have := h.2.2.2.2.2.2.1 c6.1; omega)
  rw [if_neg c6]
  by_cases c7 : b = true ∧ r.toNat = 0
  · rw [if_pos c7]; exact hno (fun h => by have := h.2.2.2.2.2.2.2 c7.1; omega)
  rw [if_neg c7]
  refine ⟨_, rfl, fun t => ?_⟩
  rw [Option.some.injEq]
  constructor
  · intro h
    refine ⟨⟨c1, not_not.1 c2, by omega, by omega, by omega, by omega, fun x => ?_, fun x => ?_⟩, h.symm⟩
    · by_contra y; exact c6 ⟨x, by omega⟩
    · by_contra y; exact c7 ⟨x, by omega⟩
  · intro h; exact h.2.symm

/-- The data before the fork, without the number of blocks with a seed. -/
def oldData (code : Bytes) (ty n q : UInt8) (gid : Bytes) : Bytes := gid ++ ([ty] ++ ([n] ++ ([q] ++ code)))

/-- The terms that were allowed before the fork.  The last 43 bytes of the code do not count if they are as the compiler adds them. -/
def OldAllowed (gid code : Bytes) (ty n q : Nat) : Prop :=
  gid ≠ [0, 0, 0, 0, 0, 0, 0, 0, 0, 1] ∧ ty = 1 ∧ n ≤ 75 ∧ 10 ≤ q ∧ q ≤ 100 ∧
  ((∃ p, Has code [0x3b, 0x3c, 0x42, 0x43, 0x4a, 0xf4] p ∧
      ((43 < code.length ∧ [0xa1, 0x65, 0x62, 0x7a, 0x7a, 0x72, 0x30, 0x58, 0x20] <+: code.drop (code.length - 43) ∧ [0x00, 0x29] <:+ code) →
        p + 43 < code.length)) → 0 < n)

/-- **Before the fork** as well; the number of blocks with a seed is that of all blocks. -/
theorem create_old_exact {gid : Bytes} (hg : gid.length = 10) (code : Bytes) (ty n q : UInt8) :
    ∃ x, checkCreate false (oldData code ty n q gid) = some x ∧
      ∀ t, x = some t ↔ OldAllowed gid code ty.toNat n.toNat q.toNat ∧ t = ⟨gid, n.toNat, n.toNat, q.toNat⟩ := by
  have hat : ∀ k, (oldData code ty n q gid)[10 + k]? = ([ty] ++ ([n] ++ ([q] ++ code)))[k]? := by
    intro k
    unfold oldData
    rw [← hg, List.getElem?_append_right (by omega)]
    congr 1; omega
  have e1 : gidOf (oldData code ty n q gid) = gid := List.take_left' hg
  have e2 : typeOf (oldData code ty n q gid) = some ty.toNat := by unfold typeOf byteAt; rw [hat 0]; rfl
  have e3 : confirmedOf (oldData code ty n q gid) = some n.toNat := by unfold confirmedOf byteAt; rw [hat 1]; rfl
  have e5 : ratioOf false (oldData code ty n q gid) = some q.toNat := by unfold ratioOf byteAt; rw [if_pos (by decide), hat 2]; rfl
  have e6 : codeOf false (oldData code ty n q gid) = code := by
    unfold codeOf oldData
    rw [if_pos (by decide), show (13 : Nat) = gid.length + 3 by omega, List.drop_length_add_append]; rfl
  have e7 : (oldData code ty n q gid).length = 13 + code.length := by
    unfold oldData; simp only [List.length_append, List.length_singleton]; omega
  obtain ⟨a, hc, ha⟩ := containsStatus_exact code
  unfold checkCreate OldAllowed
  rw [e1, e2, e3, e5, e6, e7, if_neg (by simp), ← ha]
  simp only [Option.bind_some, hc]
  have hs : snapshotGid = [0, 0, 0, 0, 0, 0, 0, 0, 0, 1] := rfl
  rw [hs]
  have hno : ∀ {P : Prop}, ¬ P → ∃ x, (some none : Option (Option Terms)) = some x ∧ ∀ t, x = some t ↔ P ∧ t = ⟨gid, n.toNat, n.toNat, q.toNat⟩ := by
    intro P hP
    exact ⟨none, rfl, fun t => ⟨fun h => (by cases h), fun h => absurd h.1 hP⟩⟩
  by_cases c1 : gid = [0, 0, 0, 0, 0, 0, 0, 0, 0, 1]
  · rw [if_pos c1]; exact hno (fun h => h.1 c1)
  rw [if_neg c1]
  by_cases c2 : ty.toNat ≠ 1
  · rw [if_pos c2]; exact hno (fun h => c2 h.2.1)
  rw [if_neg c2]
  by_cases c3 : n.toNat > 75
  · rw [if_pos c3]; exact hno (fun h => by have := h.2.2.1; omega)
  rw [if_neg c3]
  by_cases c4 : q.toNat < 10 ∨ q.toNat > 100
  · rw [if_pos c4]; exact hno (fun h => by obtain ⟨-, -, -, h5, h6, -⟩ := h; omega)
  rw [if_neg c4, if_pos (by decide)]
  by_cases c6 : a = true ∧ n.toNat = 0
  · rw [if_pos c6]; exact hno (fun h => by have := h.2.2.2.2.2 c6.1; omega)
  rw [if_neg c6]
  refine ⟨_, rfl, fun t => ?_⟩
  rw [Option.some.injEq]
  constructor
  · intro h
    refine ⟨⟨c1, not_not.1 c2, by omega, by omega, by omega, fun x => ?_⟩, h.symm⟩
    by_contra y; exact c6 ⟨x, by omega⟩
  · intro h; exact h.2.symm

/-- **A contract that was made without waiting does not read the state of the chain**, as long as its code is run before the first trailer. -/
theorem unconfirmed_reads_nothing_partial {gid code : Bytes} (hg : gid.length = 10) {ty n r q : UInt8} {t : Terms}
    (hacc : checkCreate true (createData code ty n r q gid) = some (some t))
    {e : Env} (ok : e.Ok) (he : e.code = code) {quota : Nat} (hq : quota < 2 ^ 32) {m : Machine} (h : Reach e (init quota) m)
    (hp : ∀ p, Trailer code p → m.pc < p) :
    (t.confirmed = 0 → getOp code m.pc ∉ [0x3b, 0x3c, 0x42, 0x43, 0xf4]) ∧ (t.seed = 0 → getOp code m.pc ∉ [0x4a, 0x4b]) := by
  obtain ⟨x, hx, hxt⟩ := create_exact hg code ty n r q
  rw [hacc] at hx
  obtain ⟨hall, ht⟩ := (hxt t).1 (Option.some.inj hx).symm
  obtain ⟨a, b, hc, ha, hb⟩ := containsCertain_exact code
  obtain ⟨r1, r2⟩ := run_reads_nothing_partial ok hq h (by rw [he]; exact hp)
  rw [he] at r1 r2
  obtain ⟨-, -, -, -, -, -, h7, h8⟩ := hall
  constructor
  · intro h0
    rw [ht] at h0
    have : a = false := by
      by_contra y
      have := h7 (ha.1 (by simpa using y))
      change n.toNat = 0 at h0
      omega
    rw [this] at hc
    exact r1 b hc
  · intro h0
    rw [ht] at h0
    have : b = false := by
      by_contra y
      have := h8 (hb.1 (by simpa using y))
      change r.toNat = 0 at h0
      omega
    rw [this] at hc
    exact r2 a hc

/-- **The contract that hides that it reads the time is made without waiting.** -/
theorem hidden_made : checkCreate true (createData hiddenCode 1 0 0 10 (List.replicate 10 2)) = some (some ⟨List.replicate 10 2, 0, 0, 10⟩) := by
  decide +kernel

/-- **A request from before the fork that is received after it loses the first byte of its code**: the code is taken from the data
by the height at which it is received. -/
theorem fork_shifts_code (gid : Bytes) (hg : gid.length = 10) (ty n q : UInt8) (code : Bytes) :
    codeOf false (oldData code ty n q gid) = code ∧ codeOf true (oldData code ty n q gid) = code.drop 1 := by
  unfold oldData
  constructor
  · unfold codeOf
    rw [if_pos (by decide), show (13 : Nat) = gid.length + 3 by omega, List.drop_length_add_append]; rfl
  · unfold codeOf
    rw [if_neg (by decide), show (14 : Nat) = gid.length + 4 by omega, List.drop_length_add_append]
    cases code <;> rfl

example : checkCreate true (createData [0x42] 1 0 0 10 (List.replicate 10 2)) = some none ∧
    checkCreate true (createData [0x42] 1 1 0 10 (List.replicate 10 2)) = some (some ⟨List.replicate 10 2, 1, 0, 10⟩) ∧
    checkCreate true (createData [0x4b] 1 1 0 10 (List.replicate 10 2)) = some none ∧
    checkCreate true (createData loopCode 1 0 0 100 (List.replicate 10 2)) = some (some ⟨List.replicate 10 2, 0, 0, 100⟩) := by decide +kernel

end Verif.Evm

import Verif.Evm.InterpGas

/-! # The invariant of a run -/

namespace Verif.Evm

open Verif.Bytes (Bytes num be)
open Verif.Evm.Word

/-! ### Memory is paid for -/

theorem memPrice_mono (t : QuotaTable) {a b : Nat} (h : a ≤ b) : memPrice t a ≤ memPrice t b := by
  unfold memPrice
  exact Nat.add_le_add (Nat.mul_le_mul_right _ h) (Nat.div_le_div_right (Nat.mul_le_mul h h))

theorem resize_facts (e : Env) (m : Mem) (sz : Nat) :
    (m.resize e sz).store.length = max m.store.length sz ∧ (m.resize e sz).lastGas = m.lastGas ∧
      (m.resize e sz).store.take m.store.length = m.store := by
  unfold Mem.resize
  split
  · refine ⟨?_, rfl, ?_⟩
    · simp only [List.length_append, List.length_replicate]; omega
    · simp
  · refine ⟨by omega, rfl, by simp⟩

theorem resize_cap {e : Env} (hg : ∀ c n, n ≤ e.grow c n) {m : Mem} (h : m.store.length ≤ m.cap) (sz : Nat) :
    (m.resize e sz).store.length ≤ (m.resize e sz).cap := by
  have := (resize_facts e m sz).1
  unfold Mem.resize at *
  split
  · rename_i hl
    rw [if_pos hl] at this
    dsimp only at this ⊢
    have := hg m.cap sz
    omega
  · exact h

theorem toWordSize_mul {sz : Nat} (h : sz ≤ 0xffffffffe0) (hd : 32 ∣ sz) : toWordSize sz * 32 = sz ∧ toWordSize sz = sz / 32 := by
  unfold toWordSize maxUint64
  rw [if_neg (by omega)]
  omega

/-- Charging and growing the memory keeps its price equal to what was paid. -/
theorem memory_charge {e : Env} (ht : e.table ∈ quotaTables) {m mem : Mem} {w sz g : Nat} (hl : m.store.length = 32 * w)
    (hg : m.lastGas = memPrice e.table w) (hd : 32 ∣ sz) (h : memoryGasCost e.table m sz = some (g, mem))
    (paid : g + m.lastGas < 2 ^ 32) :
    mem.store = m.store ∧ mem.cap = m.cap ∧ mem.lastGas = m.lastGas + g ∧ sz ≤ 0xffffffffe0 ∧
    ∃ w', max m.store.length sz = 32 * w' ∧ mem.lastGas = memPrice e.table w' := by
  have htab : ∀ t ∈ quotaTables, 1 ≤ t.mem ∧ t.mem ≤ 3 ∧ 512 ≤ t.memDivision := by decide +kernel
  obtain ⟨t1, t2, t3⟩ := htab e.table ht
  unfold memoryGasCost at h
  by_cases h0 : sz = 0
  · rw [if_pos h0] at h
    simp only [Option.some.injEq, Prod.mk.injEq] at h
    obtain ⟨rfl, rfl⟩ := h
    exact ⟨rfl, rfl, by omega, by omega, w, by omega, hg⟩
  rw [if_neg h0] at h
  by_cases h1 : sz > 0xffffffffe0
  · rw [if_pos h1] at h; simp at h
  rw [if_neg h1] at h
  obtain ⟨e1, e2⟩ := toWordSize_mul (by omega) hd
  rw [e1, e2] at h
  by_cases h2 : sz > m.store.length
  · rw [if_pos h2] at h
    obtain ⟨v, hv⟩ : ∃ v, v = sz / 32 := ⟨_, rfl⟩
    rw [← hv] at h
    dsimp only at h
    simp only [Option.some.injEq, Prod.mk.injEq] at h
    obtain ⟨hgg, rfl⟩ := h
    have hvw : w ≤ v := by omega
    have hv35 : v < 2 ^ 35 := by omega
    have hvm : v * e.table.mem ≤ v * 3 := Nat.mul_le_mul_left _ t2
    have hvm1 : v * 1 ≤ v * e.table.mem := Nat.mul_le_mul_left _ t1
    have hq : v * v % 2 ^ 64 / e.table.memDivision ≤ 2 ^ 64 / 512 :=
      le_trans (Nat.div_le_div_right (Nat.mod_lt _ (by norm_num)).le) (Nat.div_le_div_left t3 (by norm_num))
    have hmod1 : v * e.table.mem % 2 ^ 64 = v * e.table.mem := Nat.mod_eq_of_lt (by omega)
    rw [hmod1] at hgg ⊢
    have hmod2 : (v * e.table.mem + v * v % 2 ^ 64 / e.table.memDivision) % 2 ^ 64 =
        v * e.table.mem + v * v % 2 ^ 64 / e.table.memDivision := Nat.mod_eq_of_lt (by omega)
    rw [hmod2] at hgg ⊢
    have hv32 : v < 2 ^ 32 := by
      by_contra hc
      have hge : v * e.table.mem + v * v % 2 ^ 64 / e.table.memDivision ≥ 2 ^ 32 :=
        le_trans (show 2 ^ 32 ≤ v * e.table.mem by omega) (Nat.le_add_right _ _)
      generalize v * e.table.mem + v * v % 2 ^ 64 / e.table.memDivision = total at hgg hge hmod2
      have : total < 2 ^ 64 := by rw [← hmod2]; exact Nat.mod_lt _ (by norm_num)
      omega
    have hsq : v * v % 2 ^ 64 = v * v := Nat.mod_eq_of_lt (by nlinarith)
    rw [hsq] at hgg hmod2 hq ⊢
    have hp : memPrice e.table v = v * e.table.mem + v * v / e.table.memDivision := rfl
    rw [← hp] at hgg hmod2 ⊢
    have hmono := memPrice_mono e.table hvw
    rw [← hg] at hmono
    have hlt : memPrice e.table v < 2 ^ 64 := by rw [← hmod2]; exact Nat.mod_lt _ (by norm_num)
    refine ⟨rfl, rfl, ?_, by omega, v, by omega, rfl⟩
    dsimp only
    omega
  · rw [if_neg h2] at h
    simp only [Option.some.injEq, Prod.mk.injEq] at h
    obtain ⟨rfl, rfl⟩ := h
    exact ⟨rfl, rfl, by omega, by omega, w, by omega, hg⟩

theorem memorySize_dvd {i : Instr} {s : List Int} {sz : Nat} (h : memorySize i s = some sz) : 32 ∣ sz := by
  unfold memorySize at h
  split at h
  · simp only [Option.some.injEq] at h; omega
  · split at h
    · simp at h
    · split at h
      · simp at h
      · simp only [Option.some.injEq] at h; omega

/-! ### The invariant -/

/-- Holds in every state of a run that began with quota `q`. -/
structure Inv (e : Env) (q : Nat) (m : Machine) : Prop where
  stack : m.stack.length ≤ 1024
  wide : Wide m
  start : InstrStart e.code m.pc
  paid : m.quota + claims e.table e.orig m.store + m.mem.lastGas ≤ q
  memory : ∃ w, m.mem.store.length = 32 * w ∧ m.mem.lastGas = memPrice e.table w
  cap : m.mem.store.length ≤ m.mem.cap
  small : m.mem.store.length < 2 ^ 40
  nodup : m.touched.Nodup
  limit : e.limit = true → m.touched.length ≤ 100
  keys : e.limit = true → ∀ kv ∈ m.store, kv.1 ∈ m.touched

theorem inv_init (e : Env) (q : Nat) : Inv e q (init q) where
  stack := by simp [init]
  wide := wide_init q
  start := .first
  paid := by simp [init, claims]
  memory := ⟨0, by simp [init], by simp [init, memPrice]⟩
  cap := by simp [init]
  small := by simp [init]
  nodup := by simp [init]
  limit := by simp [init]
  keys := by simp [init]

/-- What charging for an instruction did: the state in which it executes. -/
structure Charged (e : Env) (q : Nat) (i : Instr) (m m1 : Machine) (sz c : Nat) : Prop where
  memory : ∃ w, m1.mem.store.length = 32 * w ∧ m1.mem.lastGas = memPrice e.table w
  cap : m1.mem.store.length ≤ m1.mem.cap
  small : m1.mem.store.length < 2 ^ 40
  size : m1.mem.store.length = max m.mem.store.length sz
  same : m1.mem.store.take m.mem.store.length = m.mem.store
  bound : sz ≤ 0xffffffffe0
  quota : i ≠ .sstore → m1.quota + c = m.quota ∧ m1.quota + m1.mem.lastGas ≤ m.quota + m.mem.lastGas
  sstore : i = .sstore → m1.mem = m.mem

theorem useQuota_charge {left c q : Nat} (h : useQuota left c true = some q) : q + c = left := by
  unfold useQuota at h
  rw [if_pos rfl] at h
  split at h
  · simp at h
  · simp only [Option.some.injEq] at h; omega

theorem fired_charged {e : Env} (ok : e.Ok) {q : Nat} (hq : q < 2 ^ 32) {m : Machine} (inv : Inv e q m) {i : Instr}
    {sz c : Nat} {flag : Bool} {mem : Mem} {touched : List Nat} {m1 : Machine}
    (hf : Fired e m i sz c flag mem touched m1) : Charged e q i m m1 sz c := by
  obtain ⟨⟨g, hg, hgc⟩, hfl⟩ := gasCost_priced hf.size hf.gas
  obtain ⟨hst, hpc, hsto, htou, hsend, hmem, -⟩ := hf.stack
  obtain ⟨w, hw, hlast⟩ := inv.memory
  have hpaid := inv.paid
  by_cases hi : i = .sstore
  · subst hi
    have hz : sz = 0 := by simpa [memorySize, Instr.memSize] using hf.size.symm
    subst hz
    have hmm : mem = m.mem := (gasSStore_fact (by simpa [gasCost] using hf.gas)).1
    rw [if_neg (by omega)] at hmem
    rw [hmm] at hmem
    refine ⟨⟨w, by rw [hmem]; exact hw, by rw [hmem]; exact hlast⟩, by rw [hmem]; exact inv.cap, by rw [hmem]; exact inv.small,
      by rw [hmem]; omega, by rw [hmem]; simp, by omega, fun hh => absurd rfl hh, fun _ => hmem⟩
  · obtain ⟨hfl, -⟩ := hfl hi
    subst hfl
    have hgc := hgc rfl
    have hqq := useQuota_charge hf.quota
    obtain ⟨h1, h2, h3, h4, w', h5, h6⟩ := memory_charge ok.table hw hlast (memorySize_dvd hf.size) hg (by omega)
    have hlen : m1.mem.store.length = max m.mem.store.length sz := by
      rw [hmem]; split
      · rw [(resize_facts e mem sz).1, h1]
      · rw [h1]; omega
    have hlg : m1.mem.lastGas = mem.lastGas := by
      rw [hmem]; split
      · exact (resize_facts e mem sz).2.1
      · rfl
    refine ⟨⟨w', by rw [hlen, h5], by rw [hlg, h6]⟩, ?_, ?_, hlen, ?_, h4, fun _ => ⟨hqq, by rw [hlg, h3]; omega⟩,
      fun hh => absurd hh hi⟩
    · rw [hmem]; split
      · exact resize_cap ok.grow (by rw [h1, h2]; exact inv.cap) sz
      · rw [h1, h2]; exact inv.cap
    · have := inv.small; omega
    · rw [hmem]; split
      · have := (resize_facts e mem sz).2.2
        rwa [h1] at this
      · rw [h1]; simp

theorem touch_nodup {l : List Nat} (h : l.Nodup) (k : Nat) : (touch l k).Nodup := by
  unfold touch
  split
  · exact h
  · exact List.nodup_cons.mpr ⟨by assumption, h⟩

theorem mem_touch (l : List Nat) (k : Nat) : k ∈ touch l k := by
  unfold touch; split
  · assumption
  · simp

theorem mem_touch_of {l : List Nat} {k x : Nat} (h : x ∈ l) : x ∈ touch l k := by
  unfold touch; split
  · exact h
  · simp [h]

theorem setValue_keys {store : List (Nat × Bytes)} {loc : Nat} {v : Bytes} {kv : Nat × Bytes} (h : kv ∈ setValue store loc v) :
    kv.1 = loc ∨ ∃ kw ∈ store, kw.1 = kv.1 := by
  induction store with
  | nil => simp only [setValue, List.mem_singleton] at h; subst h; exact Or.inl rfl
  | cons kw rest ih =>
    obtain ⟨k, w⟩ := kw
    unfold setValue at h
    split at h
    · rename_i hk
      rcases List.mem_cons.mp h with rfl | h
      · exact Or.inl hk
      · exact Or.inr ⟨kv, by simp [h], rfl⟩
    · rcases List.mem_cons.mp h with rfl | h
      · exact Or.inr ⟨_, by simp, rfl⟩
      · rcases ih h with h | ⟨kw, h1, h2⟩
        · exact Or.inl h
        · exact Or.inr ⟨kw, by simp [h1], h2⟩

/-- A read-only query does not write, any other SSTORE sets the location on top to the value below. -/
theorem execSstore_next {e : Env} {m m2 : Machine} (h : execute e .sstore m = .next m2) :
    m2.mem = m.mem ∧ m2.store = (if e.offchain then m.store else setValue m.store (back m.stack 0).toNat (bytesOf (back m.stack 1))) := by
  simp only [execute, execSstore] at h
  split at h
  · rename_i hs
    split at h
    · rename_i ho
      simp only [Exec.next.injEq] at h; subst h
      simp [ho]
    · rename_i ho
      simp only [Exec.next.injEq] at h; subst h
      simp [ho, back, hs]
  · simp at h

theorem offchain_store {e : Env} (ho : e.offchain = true) {q : Nat} {m : Machine} (h : Reach e (init q) m) : m.store = [] := by
  induction h with
  | here => rfl
  | next _ hs ih =>
    obtain ⟨i, sz, c, flag, mem, touched, m1, m2, hf, hx, hm⟩ := step_next hs
    have e1 : m2.store = m1.store := by
      by_cases hi : i = .sstore
      · subst hi
        rw [(execSstore_next hx).2, if_pos ho]
      · exact (execute_kept hx).store hi
    rw [hm]
    split
    · rw [e1, hf.stack.2.2.1, ih]
    · dsimp only; rw [e1, hf.stack.2.2.1, ih]

/-- The total of quota and refundable quota after a step: strictly less unless the instruction may be free. -/
theorem step_total {e : Env} (ht : e.table ∈ quotaTables) {m : Machine}
    (hoff : e.offchain = true → m.store = []) {i : Instr} {sz c : Nat} {flag : Bool} {mem : Mem} {touched : List Nat}
    {m1 m2 : Machine} (hf : Fired e m i sz c flag mem touched m1) (hx : execute e i m1 = .next m2) :
    m2.quota + claims e.table e.orig m2.store + (if i.mayBeFree then 0 else 1) ≤ m.quota + claims e.table e.orig m.store := by
  have hk := execute_kept hx
  obtain ⟨hst, hpc, hsto, htou, hsend, hmem, -⟩ := hf.stack
  by_cases hi : i = .sstore
  · subst hi
    have hfact := gasSStore_fact (show gasSStore e m = .cost c flag mem touched by simpa [gasCost] using hf.gas)
    have hcl := sstorePrice_claim ht (e.orig (back m.stack 0).toNat) (getValue e.orig m.store (back m.stack 0).toNat)
      (bytesOf (back m.stack 1))
    rw [← hfact.2.2.2] at hcl
    dsimp only at hcl
    have hset := claims_setValue e.table e.orig m.store (back m.stack 0).toNat (bytesOf (back m.stack 1))
    rw [hk.quota, (execSstore_next hx).2, hst, hsto]
    have hu := hf.quota
    simp only [Instr.mayBeFree, if_true, Nat.add_zero]
    cases flag with
    | true =>
      rw [if_pos rfl] at hcl
      have := useQuota_charge hu
      split <;> omega
    | false =>
      rw [if_neg (by simp)] at hcl
      unfold useQuota at hu
      rw [if_neg (by simp)] at hu
      simp only [Option.some.injEq] at hu
      have hle : m1.quota ≤ m.quota + c := by rw [← hu]; exact Nat.mod_le _ _
      split
      · rename_i ho
        rw [hoff ho] at hcl ⊢
        simp only [getValue, claim_self] at hcl
        omega
      · omega
  · have hpr := (gasCost_priced hf.size hf.gas).flag hi
    have hu := hf.quota
    rw [hpr.1] at hu
    have := useQuota_charge hu
    rw [hk.quota, hk.store hi, hsto]
    split
    · omega
    · rename_i hfree
      have := gasCost_pos ht (by simpa using hfree) hf.gas
      omega

/-- Quota, refundable quota and what was paid for memory never grow. -/
theorem step_funds {e : Env} (ok : e.Ok) {q : Nat} (hq : q < 2 ^ 32) {m : Machine} (inv : Inv e q m)
    (hoff : e.offchain = true → m.store = []) {i : Instr} {sz c : Nat} {flag : Bool} {mem : Mem} {touched : List Nat}
    {m1 m2 : Machine} (hf : Fired e m i sz c flag mem touched m1) (hx : execute e i m1 = .next m2) :
    m2.quota + claims e.table e.orig m2.store + m2.mem.lastGas ≤ m.quota + claims e.table e.orig m.store + m.mem.lastGas := by
  have hk := execute_kept hx
  have hc := fired_charged ok hq inv hf
  by_cases hi : i = .sstore
  · have := step_total ok.table hoff hf hx
    rw [hk.lastGas, hc.sstore hi]; omega
  · obtain ⟨h1, h2⟩ := hc.quota hi
    rw [hk.lastGas, hk.quota, hk.store hi, hf.stack.2.2.1]
    omega

theorem inv_step {e : Env} (ok : e.Ok) {q : Nat} (hq : q < 2 ^ 32) {m m' : Machine} (inv : Inv e q m)
    (hoff : e.offchain = true → m.store = []) (h : step e m = .next m') : Inv e q m' := by
  have hin := step_inside h
  have hpc' := step_pc ok inv.wide.words h
  obtain ⟨i, sz, c, flag, mem, touched, m1, m2, hf, hx, hm⟩ := step_next h
  have hk := execute_kept hx
  have hc := fired_charged ok hq inv hf
  have hfu := step_funds ok hq inv hoff hf hx
  obtain ⟨hst, hpc, hsto, htou, hsend, hmem, -⟩ := hf.stack
  have hcode := ok.code
  have hsmall := hc.small
  have hwide := execute_wide ok hx ⟨by rw [hst]; exact inv.wide.words, by rw [hsto]; exact inv.wide.store⟩
    (by rw [hpc]; omega) (by omega) (decode_push_le hf.dec)
  have hfields : m'.stack = m2.stack ∧ m'.store = m2.store ∧ m'.quota = m2.quota ∧ m'.mem = m2.mem ∧ m'.touched = m2.touched := by
    rw [hm]; split <;> exact ⟨rfl, rfl, rfl, rfl, rfl⟩
  obtain ⟨f1, f2, f3, f4, f5⟩ := hfields
  have hti : (i ≠ .sstore → touched = m.touched) := fun hi => ((gasCost_priced hf.size hf.gas).flag hi).2
  refine ⟨?_, ⟨by rw [f1]; exact hwide.words, by rw [f2]; exact hwide.store⟩, ?_, ?_, ?_, ?_, ?_, ?_, ?_, ?_⟩
  · have := hf.limit; have := hf.pops; have := hk.len
    rw [f1]; rw [hst] at this; omega
  · rcases hpc' with h1 | h1
    · rw [h1]; exact .after inv.start hin
    · exact h1.2.2
  · rw [f2, f3, f4]; have := inv.paid; omega
  · obtain ⟨w, h1, h2⟩ := hc.memory
    exact ⟨w, by rw [f4, hk.memLen, h1], by rw [f4, hk.lastGas, h2]⟩
  · rw [f4, hk.memLen, hk.cap]; exact hc.cap
  · rw [f4, hk.memLen]; exact hc.small
  · rw [f5, hk.touched, htou]
    by_cases hi : i = .sstore
    · subst hi
      rw [(gasSStore_fact (show gasSStore e m = .cost c flag mem touched by simpa [gasCost] using hf.gas)).2.1]
      split
      · exact touch_nodup inv.nodup _
      · exact inv.nodup
    · rw [hti hi]; exact inv.nodup
  · intro hl
    rw [f5, hk.touched, htou]
    by_cases hi : i = .sstore
    · subst hi
      exact (gasSStore_fact (show gasSStore e m = .cost c flag mem touched by simpa [gasCost] using hf.gas)).2.2.1 hl
    · rw [hti hi]; exact inv.limit hl
  · intro hl kv hkv
    rw [f5, hk.touched, htou]
    rw [f2] at hkv
    by_cases hi : i = .sstore
    · subst hi
      rw [(gasSStore_fact (show gasSStore e m = .cost c flag mem touched by simpa [gasCost] using hf.gas)).2.1, if_pos hl]
      rw [(execSstore_next hx).2, hst, hsto] at hkv
      split at hkv
      · exact mem_touch_of (inv.keys hl kv hkv)
      · rcases setValue_keys hkv with h1 | ⟨kw, h1, h2⟩
        · rw [h1]; exact mem_touch _ _
        · rw [← h2]; exact mem_touch_of (inv.keys hl kw h1)
    · rw [hti hi]
      rw [hk.store hi, hsto] at hkv
      exact inv.keys hl kv hkv

theorem inv_reach {e : Env} (ok : e.Ok) {q : Nat} (hq : q < 2 ^ 32) {m : Machine} (h : Reach e (init q) m) : Inv e q m := by
  induction h with
  | here => exact inv_init e q
  | next hr hs ih => exact inv_step ok hq ih (fun ho => offchain_store ho hr) hs

end Verif.Evm

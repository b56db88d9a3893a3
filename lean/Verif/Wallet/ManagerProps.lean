import Verif.Wallet.ManagerModel
import Verif.Wallet.StoreProps

/-!
# When keys can be had from a wallet

C115: a store is unlocked exactly if a passphrase that opens its file was given
since it was last locked; accounts are found exactly in the unlocked stores, in
whatever order these are gone through; what is found is the key of the address
asked for.

C116: who is told of locks and unlocks.
-/

namespace Verif.Wallet
open Verif.Bytes

/-! ## Specification -/

/-- The operation gives, for the file `p`, a passphrase that opens it. -/
def Opens (L : Lib) (E : Env) (p : Nat) (op : Op) (seed : Bytes) : Prop :=
  ∃ fs r pass, (op = .unlock fs r pass ∨ ∃ a, op = .search fs r a pass) ∧ r.path E = p
    ∧ extractSeed L (fs p) pass = .ok seed

/-- The operation locks the file `p`. -/
def Closes (L : Lib) (E : Env) (p : Nat) : Op → Prop
  | .lock r => r.path E = p
  | .remove r => r.path E = p
  | .refresh fs _ => fs p = none
  | .start _ _ => True
  | .stop => True
  | .recover m pass salt nonce => ∃ f a, storeNewEntropy L m pass salt nonce = some (f, a) ∧ E.nameOf a = p
  | _ => False

/-- The wallet knows the file. -/
def Wallet.Listed (w : Wallet) (p : Nat) : Prop := ∃ s, w.stores.lookup p = some s

/-- The seed of an unlocked file. -/
def Wallet.seedOf (w : Wallet) (p : Nat) : Option Bytes := (w.stores.lookup p).bind Store.seed

/-- In this history a passphrase opened the file while the wallet knew it, and
since then nothing locked it or opened it again. -/
def OpenedBy (L : Lib) (E : Env) (ops : List Op) (p : Nat) (seed : Bytes) : Prop :=
  ∃ before op after, ops = before ++ op :: after ∧ Opens L E p op seed ∧ (Wallet.run L E before).Listed p
    ∧ ∀ o ∈ after, ¬ Closes L E p o ∧ ∀ s, ¬ Opens L E p o s

/-! ## Maps -/

theorem lookup_filter {α : Type} (m : List (Nat × α)) (P : Nat → Bool) (q : Nat) :
    (m.filter fun e => P e.1).lookup q = if P q then m.lookup q else none := by
  induction m with
  | nil => simp
  | cons e t ih =>
    obtain ⟨k, v⟩ := e
    by_cases h : q = k
    · subst h
      by_cases hp : P q
      · simp [List.filter_cons, hp, List.lookup]
      · simp [List.filter_cons, hp, ih]
    · have hb : (q == k) = false := by simpa using h
      by_cases hp : P k
      · simp [List.filter_cons, hp, List.lookup, hb, ih]
      · simp [List.filter_cons, hp, List.lookup, hb, ih]

theorem lookup_delKey {α : Type} (m : List (Nat × α)) (k q : Nat) :
    (delKey m k).lookup q = if q = k then none else m.lookup q := by
  have := lookup_filter m (fun x => decide (x ≠ k)) q
  unfold delKey
  rw [this]
  by_cases h : q = k <;> simp [h]

theorem lookup_setKey {α : Type} (m : List (Nat × α)) (k : Nat) (v : α) (q : Nat) :
    (setKey m k v).lookup q = if q = k then some v else m.lookup q := by
  have := lookup_delKey m k q
  unfold delKey at this
  unfold setKey
  rw [List.lookup_append, this]
  by_cases h : q = k
  · simp [h]
  · have hb : (q == k) = false := by simpa using h
    simp [h, List.lookup, hb]

/-- No key twice. -/
def Distinct {α : Type} (m : List (Nat × α)) : Prop := (m.map Prod.fst).Nodup

theorem distinct_filter {α : Type} {m : List (Nat × α)} (h : Distinct m) (P : Nat × α → Bool) : Distinct (m.filter P) :=
  List.Nodup.sublist (List.Sublist.map _ List.filter_sublist) h

theorem distinct_setKey {α : Type} {m : List (Nat × α)} (h : Distinct m) (k : Nat) (v : α) : Distinct (setKey m k v) := by
  unfold setKey Distinct
  rw [List.map_append, List.nodup_append]
  refine ⟨distinct_filter h _, by simp, ?_⟩
  intro x hx y hy
  simp only [List.mem_map, List.mem_filter] at hx
  obtain ⟨e, ⟨_, he⟩, rfl⟩ := hx
  simp only [List.map_cons, List.map_nil, List.mem_singleton] at hy
  subst hy
  simpa using he

theorem mem_iff_lookup {α : Type} {m : List (Nat × α)} (h : Distinct m) (p : Nat) (s : α) :
    (p, s) ∈ m ↔ m.lookup p = some s := by
  induction m with
  | nil => simp
  | cons e t ih =>
    obtain ⟨k, v⟩ := e
    simp only [Distinct, List.map_cons, List.nodup_cons] at h
    by_cases hk : p = k
    · subst hk
      have : (p, s) ∉ t := fun hm => h.1 (List.mem_map.2 ⟨_, hm, rfl⟩)
      simp only [List.mem_cons, Prod.mk.injEq, true_and, this, or_false, List.lookup, beq_self_eq_true,
        Option.some.injEq]
      exact eq_comm
    · have hb : (p == k) = false := by simpa using hk
      simp only [List.mem_cons, Prod.mk.injEq, hk, false_and, false_or, List.lookup, hb]
      exact ih h.2

/-! ## One operation -/

theorem unlock_ok {L : Lib} {E : Env} {fs : Nat → Option File} {w : Wallet} {r : Ref} {pass seed : Bytes} {s : Store}
    (hs : w.get E r = some s) (he : extractSeed L (fs (r.path E)) pass = .ok seed) :
    w.unlock L E fs r pass = ({ w with stores := setKey w.stores (r.path E) { s with seed := some seed } }, .ok (),
      w.tell s (r.path E) true) := by
  simp [Wallet.unlock, hs, he]

theorem unlock_fails {L : Lib} {E : Env} {fs : Nat → Option File} {w : Wallet} {r : Ref} {pass : Bytes}
    (h : w.get E r = none ∨ ∀ seed, extractSeed L (fs (r.path E)) pass ≠ .ok seed) :
    (w.unlock L E fs r pass).1 = w ∧ (w.unlock L E fs r pass).2.2 = [] ∧ (w.unlock L E fs r pass).2.1 ≠ .ok () := by
  unfold Wallet.unlock
  cases hs : w.get E r with
  | none => simp
  | some s =>
    have h' := h.resolve_left (by simp [hs])
    cases he : extractSeed L (fs (r.path E)) pass with
    | ok seed => exact absurd he (h' seed)
    | _ => simp

theorem search_wallet (L : Lib) (E : Env) (fs : Nat → Option File) (w : Wallet) (r : Ref) (a pass : Bytes) :
    (w.search L E fs r a pass).1 = (w.unlock L E fs r pass).1
      ∧ (w.search L E fs r a pass).2.2 = (w.unlock L E fs r pass).2.2 := by
  unfold Wallet.search
  split <;> rename_i h <;> rw [h]
  · rename_i w' _ _
    cases w'.get E r <;> simp
  all_goals simp

theorem unlock_seed (L : Lib) (E : Env) (fs : Nat → Option File) (w : Wallet) (r : Ref) (pass : Bytes) (p : Nat)
    (seed : Bytes) :
    (w.unlock L E fs r pass).1.seedOf p = some seed ↔
      (r.path E = p ∧ w.Listed p ∧ extractSeed L (fs p) pass = .ok seed)
      ∨ (w.seedOf p = some seed ∧ ¬ (r.path E = p ∧ ∃ s, extractSeed L (fs p) pass = .ok s)) := by
  by_cases h : w.get E r = none ∨ ∀ seed, extractSeed L (fs (r.path E)) pass ≠ .ok seed
  · rw [(unlock_fails h).1]
    constructor
    · intro hs
      refine Or.inr ⟨hs, ?_⟩
      rintro ⟨rfl, s, he⟩
      rcases h with h | h
      · simp only [Wallet.get] at h
        simp [Wallet.seedOf, h] at hs
      · exact h s he
    · rintro (⟨rfl, ⟨s, hs⟩, he⟩ | ⟨hs, _⟩)
      · rcases h with h | h
        · simp only [Wallet.get] at h
          rw [h] at hs; cases hs
        · exact absurd he (h seed)
      · exact hs
  · simp only [not_or, Classical.not_forall, Classical.not_not] at h
    obtain ⟨hg, sd, he⟩ := h
    obtain ⟨s, hs⟩ := Option.ne_none_iff_exists'.1 hg
    rw [unlock_ok hs he]
    simp only [Wallet.seedOf, lookup_setKey]
    by_cases hp : p = r.path E
    · subst hp
      simp only [if_true, Option.bind_some, Option.some.injEq, true_and, he, Res.ok.injEq, exists_eq',
        not_true_eq_false, and_false, or_false]
      exact ⟨fun e => ⟨⟨s, hs⟩, e⟩, fun e => e.2⟩
    · have hp' : ¬ r.path E = p := fun e => hp e.symm
      simp [hp, hp']

theorem lock_seed (E : Env) (w : Wallet) (r : Ref) (p : Nat) :
    (w.lock E r).1.seedOf p = if r.path E = p then none else w.seedOf p := by
  unfold Wallet.lock
  cases hg : w.get E r with
  | none =>
    by_cases hp : r.path E = p
    · subst hp
      simp only [Wallet.get] at hg
      simp [Wallet.seedOf, hg]
    · simp [hp]
  | some s =>
    simp only [Wallet.seedOf, lookup_setKey]
    by_cases hp : r.path E = p
    · subst hp; simp
    · have : ¬ p = r.path E := fun e => hp e.symm
      simp [hp, this]

theorem remove_seed (E : Env) (w : Wallet) (r : Ref) (p : Nat) :
    (w.remove E r).1.seedOf p = if r.path E = p then none else w.seedOf p := by
  unfold Wallet.remove
  cases hg : w.get E r with
  | none =>
    by_cases hp : r.path E = p
    · subst hp
      simp only [Wallet.get] at hg
      simp [Wallet.seedOf, hg]
    · simp [hp]
  | some s =>
    cases r with
    | rel q => exact lock_seed E w _ p
    | abs q =>
      have := lock_seed E w (.abs q) p
      simp only [Ref.raw, Wallet.seedOf, lookup_delKey, Ref.path] at this ⊢
      by_cases hp : p = q
      · simp [hp]
      · simp only [hp, if_false]
        exact this

theorem add_seed (L : Lib) (E : Env) (fs : Nat → Option File) (w : Wallet) (r : Ref) (p : Nat) :
    (w.add L E fs r).seedOf p = w.seedOf p := by
  unfold Wallet.add
  split
  · rfl
  · split
    · rfl
    · split
      · rfl
      · rename_i hg
        simp only [Wallet.seedOf, lookup_setKey]
        by_cases hp : p = r.path E
        · simp only [Wallet.get] at hg
          simp [hp, hg]
        · simp [hp]

theorem start_seed (L : Lib) (E : Env) (fs : Nat → Option File) (files : List Nat) (w : Wallet) (p : Nat) :
    (w.start L E fs files).seedOf p = none := by
  unfold Wallet.start
  have : ∀ (fl : List Nat) (v : Wallet), v.seedOf p = none →
      (fl.foldl (fun w p => w.add L E fs (.abs p)) v).seedOf p = none := by
    intro fl
    induction fl with
    | nil => exact fun _ h => h
    | cons x t ih => exact fun v h => ih _ (by rw [add_seed]; exact h)
  exact this _ _ rfl

/-- What one operation does to the seed of a file. -/
theorem step_seed (L : Lib) (E : Env) (w : Wallet) (op : Op) (p : Nat) (seed : Bytes) :
    (w.step L E op).1.seedOf p = some seed ↔
      (Opens L E p op seed ∧ w.Listed p)
      ∨ (w.seedOf p = some seed ∧ ¬ Closes L E p op ∧ ∀ s, ¬ Opens L E p op s) := by
  have other : ∀ op, (∀ fs r pass, op ≠ .unlock fs r pass) → (∀ fs r a pass, op ≠ .search fs r a pass) →
      ∀ s, ¬ Opens L E p op s := by
    rintro op h1 h2 s ⟨fs, r, pass, h | ⟨a, h⟩, _⟩
    · exact h1 _ _ _ h
    · exact h2 _ _ _ _ h
  cases op with
  | unlock fs r pass =>
    have ho : ∀ s, Opens L E p (.unlock fs r pass) s ↔ r.path E = p ∧ extractSeed L (fs p) pass = .ok s := by
      intro s
      constructor
      · rintro ⟨fs', r', pass', h | ⟨a, h⟩, h1, h2⟩
        · cases h; exact ⟨h1, h2⟩
        · cases h
      · rintro ⟨h1, h2⟩
        exact ⟨fs, r, pass, Or.inl rfl, h1, h2⟩
    simp only [Wallet.step, unlock_seed, ho, Closes, not_false_eq_true, true_and, not_and, not_exists]
    constructor
    · rintro (⟨h1, h2, h3⟩ | ⟨h1, h2⟩)
      · exact Or.inl ⟨⟨h1, h3⟩, h2⟩
      · exact Or.inr ⟨h1, fun s hp => h2 hp s⟩
    · rintro (⟨⟨h1, h3⟩, h2⟩ | ⟨h1, h2⟩)
      · exact Or.inl ⟨h1, h2, h3⟩
      · exact Or.inr ⟨h1, fun hp s => h2 s hp⟩
  | search fs r a pass =>
    have ho : ∀ s, Opens L E p (.search fs r a pass) s ↔ r.path E = p ∧ extractSeed L (fs p) pass = .ok s := by
      intro s
      constructor
      · rintro ⟨fs', r', pass', h | ⟨a, h⟩, h1, h2⟩
        · cases h
        · cases h; exact ⟨h1, h2⟩
      · rintro ⟨h1, h2⟩
        exact ⟨fs, r, pass, Or.inr ⟨a, rfl⟩, h1, h2⟩
    simp only [Wallet.step, (search_wallet L E fs w r a pass).1, unlock_seed, ho, Closes, not_false_eq_true, true_and,
      not_and, not_exists]
    constructor
    · rintro (⟨h1, h2, h3⟩ | ⟨h1, h2⟩)
      · exact Or.inl ⟨⟨h1, h3⟩, h2⟩
      · exact Or.inr ⟨h1, fun s hp => h2 hp s⟩
    · rintro (⟨⟨h1, h3⟩, h2⟩ | ⟨h1, h2⟩)
      · exact Or.inl ⟨h1, h2, h3⟩
      · exact Or.inr ⟨h1, fun hp s => h2 s hp⟩
  | lock r =>
    have := other (.lock r) (by simp) (by simp)
    simp only [Wallet.step, lock_seed, this, false_and, false_or, not_false_eq_true, implies_true, and_true, Closes]
    by_cases hp : r.path E = p <;> simp [hp]
  | remove r =>
    have := other (.remove r) (by simp) (by simp)
    simp only [Wallet.step, remove_seed, this, false_and, false_or, not_false_eq_true, implies_true, and_true, Closes]
    by_cases hp : r.path E = p <;> simp [hp]
  | add fs r =>
    have := other (.add fs r) (by simp) (by simp)
    simp [Wallet.step, add_seed, this, Closes]
  | refresh fs order =>
    have := other (.refresh fs order) (by simp) (by simp)
    simp only [Wallet.step, Wallet.refresh, this, false_and, false_or, not_false_eq_true, implies_true, and_true, Closes,
      Wallet.seedOf, lookup_filter w.stores (fun x => (fs x).isSome) p]
    cases fs p <;> simp
  | recover m pass salt nonce =>
    have := other (.recover m pass salt nonce) (by simp) (by simp)
    simp only [Wallet.step, Wallet.recover, this, false_and, false_or, not_false_eq_true, implies_true, and_true, Closes]
    cases hn : storeNewEntropy L m pass salt nonce with
    | none => simp
    | some x =>
      obtain ⟨f, a⟩ := x
      simp only [Wallet.seedOf, lookup_setKey, Option.some.injEq, Prod.mk.injEq]
      by_cases hp : p = E.nameOf a
      · subst hp
        simp only [if_true, Option.bind_some]
        constructor
        · rintro h; cases h
        · rintro ⟨_, h⟩; exact absurd ⟨f, a, ⟨rfl, rfl⟩, rfl⟩ h
      · simp only [hp, if_false]
        constructor
        · intro h
          refine ⟨h, ?_⟩
          rintro ⟨f', a', ⟨rfl, rfl⟩, h'⟩
          exact hp h'.symm
        · exact fun h => h.1
  | start fs files =>
    have := other (.start fs files) (by simp) (by simp)
    simp [Wallet.step, start_seed, this, Closes]
  | stop =>
    have := other .stop (by simp) (by simp)
    simp [Wallet.step, Wallet.stop, Wallet.seedOf, this, Closes]
  | addListener l =>
    have := other (.addListener l) (by simp) (by simp)
    simp [Wallet.step, Wallet.addListener, Wallet.seedOf, this, Closes]
  | removeListener id =>
    have := other (.removeListener id) (by simp) (by simp)
    simp [Wallet.step, Wallet.removeListener, Wallet.seedOf, this, Closes]

theorem run_snoc (L : Lib) (E : Env) (ops : List Op) (op : Op) :
    Wallet.run L E (ops ++ [op]) = ((Wallet.run L E ops).step L E op).1 := by
  simp [Wallet.run, List.foldl_append]

/-- **C115 (unlocked means opened).** After every history a file is unlocked,
with a seed, exactly if a passphrase that opens the file to that seed was given
while the wallet knew the file, and nothing has locked it since. -/
theorem unlocked_iff_opened (L : Lib) (E : Env) (ops : List Op) (p : Nat) (seed : Bytes) :
    (Wallet.run L E ops).seedOf p = some seed ↔ OpenedBy L E ops p seed := by
  induction ops using List.reverseRecOn with
  | nil =>
    constructor
    · intro h; simp [Wallet.run, Wallet.new, Wallet.seedOf] at h
    · rintro ⟨b, op, a, h, _⟩; simp at h
  | append_singleton ops op ih =>
    rw [run_snoc, step_seed]
    constructor
    · rintro (⟨h1, h2⟩ | ⟨h1, h2, h3⟩)
      · exact ⟨ops, op, [], rfl, h1, h2, by simp⟩
      · obtain ⟨b, o, a, rfl, h4, h5, h6⟩ := ih.1 h1
        refine ⟨b, o, a ++ [op], by simp, h4, h5, ?_⟩
        intro x hx
        rcases List.mem_append.1 hx with hx | hx
        · exact h6 x hx
        · rw [List.mem_singleton.1 hx]; exact ⟨h2, h3⟩
    · rintro ⟨b, o, a, h, h4, h5, h6⟩
      rcases List.eq_nil_or_concat a with rfl | ⟨a', x, rfl⟩
      · obtain ⟨h1, h2⟩ := List.append_inj' h rfl
        simp only [List.cons.injEq, and_true] at h2
        subst h1; subst h2
        exact Or.inl ⟨h4, h5⟩
      · have h' : ops ++ [op] = (b ++ o :: a') ++ [x] := by simpa using h
        obtain ⟨rfl, h''⟩ := List.append_inj' h' rfl
        cases h''
        refine Or.inr ⟨ih.2 ⟨b, o, a', rfl, h4, h5, fun y hy => h6 y (by simp [hy])⟩, ?_⟩
        exact h6 op (by simp)

/-! ## Accounts -/

/-- What holds of the stores after every history. -/
def Wallet.Good (w : Wallet) : Prop := Distinct w.stores ∧ ∀ e ∈ w.stores, e.2.max ≤ 2 ^ 31

theorem good_set {w : Wallet} (h : w.Good) (k : Nat) (s : Store) (hs : s.max ≤ 2 ^ 31) :
    ({ w with stores := setKey w.stores k s } : Wallet).Good := by
  refine ⟨distinct_setKey h.1 _ _, ?_⟩
  intro e he
  simp only [setKey, List.mem_append, List.mem_filter, List.mem_singleton] at he
  rcases he with he | rfl
  · exact h.2 e he.1
  · exact hs

theorem good_filter {w : Wallet} (h : w.Good) (P : Nat × Store → Bool) :
    ({ w with stores := w.stores.filter P } : Wallet).Good :=
  ⟨distinct_filter h.1 _, fun e he => h.2 e (List.mem_filter.1 he).1⟩

theorem good_get {w : Wallet} (h : w.Good) {E : Env} {r : Ref} {s : Store} (hs : w.get E r = some s) :
    s.max ≤ 2 ^ 31 :=
  h.2 _ ((mem_iff_lookup h.1 _ _).2 hs)

theorem good_unlock {L : Lib} {E : Env} {w : Wallet} (h : w.Good) (fs : Nat → Option File) (r : Ref) (pass : Bytes) :
    (w.unlock L E fs r pass).1.Good := by
  by_cases hf : w.get E r = none ∨ ∀ seed, extractSeed L (fs (r.path E)) pass ≠ .ok seed
  · rw [(unlock_fails hf).1]; exact h
  · simp only [not_or, Classical.not_forall, Classical.not_not] at hf
    obtain ⟨hg, sd, he⟩ := hf
    obtain ⟨s, hs⟩ := Option.ne_none_iff_exists'.1 hg
    rw [unlock_ok hs he]
    have := good_get h hs
    exact good_set h _ _ this

theorem good_lock {E : Env} {w : Wallet} (h : w.Good) (r : Ref) : (w.lock E r).1.Good := by
  unfold Wallet.lock
  split
  · exact h
  · rename_i s hs
    have := good_get h hs
    exact good_set h _ _ this

theorem good_add {L : Lib} {E : Env} (hE : E.maxIndex ≤ 2 ^ 31) {w : Wallet} (h : w.Good) (fs : Nat → Option File)
    (r : Ref) : (w.add L E fs r).Good := by
  unfold Wallet.add
  split
  · exact h
  · split
    · exact h
    · split
      · exact h
      · exact good_set h _ _ hE

theorem good_step {L : Lib} {E : Env} (hE : E.maxIndex ≤ 2 ^ 31) {w : Wallet} (h : w.Good) (op : Op) :
    (w.step L E op).1.Good := by
  cases op with
  | unlock fs r pass => exact good_unlock h _ _ _
  | search fs r a pass => simp only [Wallet.step, (search_wallet L E fs w r a pass).1]; exact good_unlock h _ _ _
  | lock r => exact good_lock h r
  | add fs r => exact good_add hE h fs r
  | remove r =>
    simp only [Wallet.step, Wallet.remove]
    split
    · exact h
    · split
      · exact good_lock h r
      · exact good_filter (good_lock h r) _
  | refresh fs order => exact good_filter h _
  | recover m pass salt nonce =>
    simp only [Wallet.step, Wallet.recover]
    split
    · exact h
    · exact good_set h _ _ (show 100 ≤ 2 ^ 31 by decide)
  | start fs files =>
    simp only [Wallet.step, Wallet.start]
    have : ∀ (fl : List Nat) (v : Wallet), v.Good → (fl.foldl (fun w p => w.add L E fs (.abs p)) v).Good := by
      intro fl
      induction fl with
      | nil => exact fun _ h => h
      | cons x t ih => exact fun v h => ih _ (good_add hE h fs _)
    exact this _ _ ⟨by simp [Distinct], by simp⟩
  | stop => exact ⟨by simp [Wallet.step, Wallet.stop, Distinct], by simp [Wallet.step, Wallet.stop]⟩
  | addListener l => exact h
  | removeListener id => exact h

theorem good_run {L : Lib} {E : Env} (hE : E.maxIndex ≤ 2 ^ 31) (ops : List Op) : (Wallet.run L E ops).Good := by
  induction ops using List.reverseRecOn with
  | nil => exact ⟨by simp [Wallet.run, Wallet.new, Distinct], by simp [Wallet.run, Wallet.new]⟩
  | append_singleton ops op ih => rw [run_snoc]; exact good_step hE ih op

/-- An entry of the map has the address: it is unlocked, and one of its accounts
below its limit is that of the address. -/
def Holds (L : Lib) (a : Bytes) (e : Nat × Store) : Prop :=
  ∃ seed i, e.2.seed = some seed ∧ i < e.2.max ∧ (account L seed i).address L = a

theorem find_cases (L : Lib) (seed a : Bytes) (max : Nat) (h : max ≤ 2 ^ 31) :
    (∃ k i, findAddrFromSeed L seed a max = .ok (k, i) ∧ i < max ∧ k = account L seed i ∧ k.address L = a)
      ∨ (findAddrFromSeed L seed a max = .notFound ∧ ∀ i < max, (account L seed i).address L ≠ a) := by
  by_cases hn : ∀ i < max, (account L seed i).address L ≠ a
  · exact Or.inr ⟨(find_address_none L seed a max h).2 hn, hn⟩
  · left
    have hne := fun e => hn ((find_address_none L seed a max h).1 e)
    rw [findAddrFromSeed, findLoop_spec L seed a max 0 (by omega), ← List.range_eq_range'] at hne ⊢
    cases hf : (List.range max).find? fun j => a = (account L seed j).address L with
    | none => rw [hf] at hne; exact absurd rfl hne
    | some j =>
      refine ⟨_, j, rfl, ?_, rfl, ?_⟩
      · simpa using List.mem_of_find?_eq_some hf
      · have := List.find?_some hf
        simpa using (of_decide_eq_true this).symm

theorem accountIn_spec (L : Lib) (a : Bytes) (order : List (Nat × Store)) (h : ∀ e ∈ order, e.2.max ≤ 2 ^ 31) :
    (∃ e ∈ order, Holds L a e) ∧ (∃ p s seed k i, accountIn L a order = .ok (p, k, i) ∧ (p, s) ∈ order
        ∧ s.seed = some seed ∧ i < s.max ∧ k = account L seed i ∧ k.address L = a)
      ∨ (¬ ∃ e ∈ order, Holds L a e) ∧ accountIn L a order = .notFound := by
  induction order with
  | nil => right; simp [accountIn]
  | cons e rest ih =>
    obtain ⟨p, s⟩ := e
    have ihr := ih fun e he => h e (List.mem_cons_of_mem _ he)
    have pass : ¬ Holds L a (p, s) → accountIn L a ((p, s) :: rest) = accountIn L a rest →
        (∃ e ∈ (p, s) :: rest, Holds L a e) ∧ (∃ p' s' seed k i, accountIn L a ((p, s) :: rest) = .ok (p', k, i)
          ∧ (p', s') ∈ (p, s) :: rest ∧ s'.seed = some seed ∧ i < s'.max ∧ k = account L seed i ∧ k.address L = a)
        ∨ (¬ ∃ e ∈ (p, s) :: rest, Holds L a e) ∧ accountIn L a ((p, s) :: rest) = .notFound := by
      intro hn he
      rw [he]
      rcases ihr with ⟨⟨x, hx, hh⟩, p', s', seed, k, i, h1, h2, h3⟩ | ⟨h1, h2⟩
      · exact Or.inl ⟨⟨x, List.mem_cons_of_mem _ hx, hh⟩, p', s', seed, k, i, h1, List.mem_cons_of_mem _ h2, h3⟩
      · refine Or.inr ⟨?_, h2⟩
        rintro ⟨x, hx, hh⟩
        rcases List.mem_cons.1 hx with rfl | hx
        · exact hn hh
        · exact h1 ⟨x, hx, hh⟩
    cases hs : s.seed with
    | none =>
      refine pass ?_ (by simp [accountIn, hs])
      rintro ⟨seed, i, h1, _⟩
      simp only [hs] at h1; cases h1
    | some seed =>
      rcases find_cases L seed a s.max (h _ List.mem_cons_self) with ⟨k, i, h1, h2, h3, h4⟩ | ⟨h1, h2⟩
      · refine Or.inl ⟨⟨(p, s), List.mem_cons_self, seed, i, hs, h2, by rw [← h3]; exact h4⟩,
          p, s, seed, k, i, ?_, List.mem_cons_self, hs, h2, h3, h4⟩
        simp [accountIn, hs, h1, h4]
      · refine pass ?_ (by simp [accountIn, hs, h1])
        rintro ⟨seed', i, h3, h4, h5⟩
        simp only [hs, Option.some.injEq] at h3
        subst h3
        exact h2 i h4 h5

/-- **C115 (accounts).** After every history, and in whatever order the map is
gone through: the search for an address gives a key exactly if some file was
opened, and not locked since, that has the address among its first accounts;
the key is that account of that file, and its address is the one asked for;
otherwise the answer is "not found" (never a panic or another error). -/
theorem account_exactly {L : Lib} {E : Env} (hE : E.maxIndex ≤ 2 ^ 31) (ops : List Op) (a : Bytes)
    (order : List (Nat × Store)) (ho : order.Perm (Wallet.run L E ops).stores) :
    let Has := fun p seed i => OpenedBy L E ops p seed ∧
      (∃ s, (Wallet.run L E ops).stores.lookup p = some s ∧ i < s.max) ∧ (account L seed i).address L = a
    (∃ p k i, accountIn L a order = .ok (p, k, i) ∧ ∃ seed, Has p seed i ∧ k = account L seed i)
      ∨ ((∀ p seed i, ¬ Has p seed i) ∧ accountIn L a order = .notFound) := by
  have hg := good_run (L := L) hE ops
  have hm : ∀ p s, (p, s) ∈ order ↔ (Wallet.run L E ops).stores.lookup p = some s := fun p s => by
    rw [ho.mem_iff, mem_iff_lookup hg.1]
  rcases accountIn_spec L a order (fun e he => hg.2 e (ho.mem_iff.1 he)) with ⟨_, p, s, seed, k, i, h1, h2, h3, h4, h5, h6⟩ | ⟨h1, h2⟩
  · refine Or.inl ⟨p, k, i, h1, seed, ⟨?_, ⟨s, (hm p s).1 h2, h4⟩, by rw [← h5]; exact h6⟩, h5⟩
    rw [← unlocked_iff_opened]
    simp [Wallet.seedOf, (hm p s).1 h2, h3]
  · refine Or.inr ⟨?_, h2⟩
    rintro p seed i ⟨h3, ⟨s, h4, h5⟩, h6⟩
    rw [← unlocked_iff_opened] at h3
    refine h1 ⟨(p, s), (hm p s).2 h4, seed, i, ?_, h5, h6⟩
    simpa [Wallet.seedOf, h4] using h3

/-- **C115 (by index).** The key at an index is given only for an unlocked store
and only if its address is the one asked for. -/
theorem at_index (L : Lib) (s : Store) (i : Nat) (hi : i < 2 ^ 32) (a : Bytes) (k : Key) :
    s.atIndex L i a = .ok k ↔
      ∃ seed, s.seed = some seed ∧ i < 2 ^ 31 ∧ k = account L seed i ∧ k.address L = a := by
  unfold Store.atIndex
  cases s.seed with
  | none => simp
  | some seed =>
    simp only [derive_index L i hi seed]
    by_cases h31 : i < 2 ^ 31
    · simp only [if_pos h31, Option.some.injEq]
      constructor
      · intro h
        split at h
        · cases h
        · rename_i hne
          cases h
          exact ⟨seed, rfl, h31, rfl, Classical.not_not.1 hne⟩
      · rintro ⟨_, rfl, _, rfl, h⟩
        rw [if_neg (by simpa using h)]
    · simp only [if_neg h31]
      constructor
      · intro h; cases h
      · rintro ⟨_, _, h, _⟩; exact absurd h h31

/-- **C115 (in one store).** The search in a store gives a key only if it is
unlocked, and then the first of its accounts with the address. -/
theorem find_in_store (L : Lib) (s : Store) (a : Bytes) (hm : s.max ≤ 2 ^ 31) (k : Key) (i : Nat) :
    s.find L a = .ok (k, i) ↔ ∃ seed, s.seed = some seed ∧ i < s.max ∧ k = account L seed i ∧ k.address L = a
      ∧ ∀ j < i, (account L seed j).address L ≠ a := by
  unfold Store.find
  cases s.seed with
  | none => simp
  | some seed => simp [find_address L seed a s.max hm]

/-- **C115 (search in a file).** With a passphrase that opens the file, the answer
is what its accounts give. -/
theorem search_result (L : Lib) (E : Env) (fs : Nat → Option File) (w : Wallet) (r : Ref) (a pass seed : Bytes) (s : Store)
    (hs : w.get E r = some s) (hm : s.max ≤ 2 ^ 31) (he : extractSeed L (fs (r.path E)) pass = .ok seed) (k : Key) (i : Nat) :
    (w.search L E fs r a pass).2.1 = .ok (k, i) ↔
      i < s.max ∧ k = account L seed i ∧ k.address L = a ∧ ∀ j < i, (account L seed j).address L ≠ a := by
  have hs' : w.stores.lookup (r.path E) = some s := hs
  have : (w.search L E fs r a pass).2.1 = findAddrFromSeed L seed a s.max := by
    simp [Wallet.search, unlock_ok hs he, Wallet.get, lookup_setKey, Store.find]
  rw [this, find_address L seed a s.max hm]

/-- **C115 (no passphrase, no key).** Otherwise nothing is given. -/
theorem search_refused (L : Lib) (E : Env) (fs : Nat → Option File) (w : Wallet) (r : Ref) (a pass : Bytes)
    (h : w.get E r = none ∨ ∀ seed, extractSeed L (fs (r.path E)) pass ≠ .ok seed) (x : Key × Nat) :
    (w.search L E fs r a pass).2.1 ≠ .ok x := by
  obtain ⟨_, _, h3⟩ := unlock_fails h
  unfold Wallet.search
  split
  · rename_i hu
    rw [hu] at h3
    exact absurd rfl h3
  all_goals simp

/-- The RPC gives the index of what it finds. -/
theorem rpc_find_found (L : Lib) (E : Env) (w : Wallet) (r : Ref) (a : Bytes) (s : Store) (k : Key) (i : Nat)
    (hs : w.get E r = some s) (hf : s.find L a = .ok (k, i)) : rpcFindAddr L E w r a = .ok (r.path E, i) := by
  simp [rpcFindAddr, hs, hf]

/-! ## Where the code does something else -/

/-- **Removal by a relative name does not remove.** The store is locked but stays
listed, and can be unlocked again; by an absolute name it is gone. -/
theorem remove_relative_keeps (E : Env) (w : Wallet) (q : Nat) (s : Store) (h : w.get E (.rel q) = some s) :
    (w.remove E (.rel q)).1.get E (.rel q) = some { s with seed := none } := by
  have h' := h
  simp only [Wallet.get, Ref.path] at h'
  simp [Wallet.remove, h', Ref.raw, Wallet.lock, Wallet.get, Ref.path, lookup_setKey]

theorem remove_absolute (E : Env) (w : Wallet) (p : Nat) : ¬ (w.remove E (.abs p)).1.Listed p := by
  rintro ⟨s, hs⟩
  unfold Wallet.remove at hs
  cases hg : w.get E (.abs p) with
  | none =>
    simp only [hg] at hs
    simp only [Wallet.get, Ref.path] at hg
    rw [hg] at hs; cases hs
  | some s' =>
    simp only [hg, Ref.raw, lookup_delKey, if_true] at hs
    cases hs

/-- **A search leaves the store open.** `AccountSearch` with a file unlocks it,
whether the address is found or not, and does not lock it again. -/
theorem search_leaves_unlocked (L : Lib) (E : Env) (fs : Nat → Option File) (w : Wallet) (r : Ref) (a pass seed : Bytes)
    (hl : w.Listed (r.path E)) (he : extractSeed L (fs (r.path E)) pass = .ok seed) :
    (w.search L E fs r a pass).1.seedOf (r.path E) = some seed := by
  rw [(search_wallet L E fs w r a pass).1, unlock_seed]
  exact Or.inl ⟨rfl, hl, he⟩

/-- **The search by passphrase depends on the order of the map.** Two stores with
different passphrases, the right one for the second: "wrong passphrase" in one
order, the key in the other. -/
theorem passphrase_search_order (L : Lib) (fs : Nat → Option File) (a pass seed : Bytes) (p q : Nat) (s t : Store)
    (hp : extractSeed L (fs p) pass = .badPass) (hq : extractSeed L (fs q) pass = .ok seed)
    (k : Key) (i : Nat) (hf : findAddrFromSeed L seed a t.max = .ok (k, i)) :
    findWithPassphrase L fs a pass [(p, s), (q, t)] = .badPass
      ∧ findWithPassphrase L fs a pass [(q, t), (p, s)] = .ok (q, k, i) := by
  simp [findWithPassphrase, hp, hq, hf]

/-- If every store opens with the passphrase the order does not matter. -/
theorem passphrase_search_partial (L : Lib) (fs : Nat → Option File) (a pass : Bytes) (order : List (Nat × Store))
    (hm : ∀ e ∈ order, e.2.max ≤ 2 ^ 31) (hall : ∀ e ∈ order, ∃ seed, extractSeed L (fs e.1) pass = .ok seed) :
    (∃ p k i seed, findWithPassphrase L fs a pass order = .ok (p, k, i) ∧ extractSeed L (fs p) pass = .ok seed
        ∧ k = account L seed i ∧ k.address L = a)
      ∨ (findWithPassphrase L fs a pass order = .notFound ∧ ∀ e ∈ order, ∀ seed, extractSeed L (fs e.1) pass = .ok seed →
          ∀ i < e.2.max, (account L seed i).address L ≠ a) := by
  induction order with
  | nil => right; simp [findWithPassphrase]
  | cons e rest ih =>
    obtain ⟨p, s⟩ := e
    obtain ⟨seed, he⟩ := hall _ List.mem_cons_self
    simp only at he
    rcases find_cases L seed a s.max (hm _ List.mem_cons_self) with ⟨k, i, h1, h2, h3, h4⟩ | ⟨h1, h2⟩
    · exact Or.inl ⟨p, k, i, seed, by simp [findWithPassphrase, he, h1], he, h3, h4⟩
    · have : findWithPassphrase L fs a pass ((p, s) :: rest) = findWithPassphrase L fs a pass rest := by
        simp [findWithPassphrase, he, h1]
      rw [this]
      rcases ih (fun e h => hm e (List.mem_cons_of_mem _ h)) (fun e h => hall e (List.mem_cons_of_mem _ h)) with h | ⟨h3, h4⟩
      · exact Or.inl h
      · refine Or.inr ⟨h3, ?_⟩
        intro e hm' seed' hs'
        rcases List.mem_cons.1 hm' with rfl | hm'
        · simp only at hs'
          rw [he] at hs'
          cases hs'
          exact h2
        · exact h4 e hm' seed' hs'

/-- **The RPC says index 0 for what it did not find.** Whatever the reason: a
locked store, an unknown address. -/
theorem rpc_find_says_zero (L : Lib) (E : Env) (w : Wallet) (r : Ref) (a : Bytes) (s : Store)
    (hs : w.get E r = some s) (hf : ∀ x, s.find L a ≠ .ok x) : rpcFindAddr L E w r a = .ok (r.path E, 0) := by
  unfold rpcFindAddr
  simp only [hs]
  cases h : s.find L a with
  | ok x => exact absurd h (hf x)
  | _ => rfl

/-- **A recovered wallet finds fewer accounts until the node is restarted.** The
limit of a recovered store is 100 whatever the configuration says; after a
restart it is the configured one. -/
theorem recovered_limit (L : Lib) (E : Env) (w : Wallet) (m pass salt nonce : Bytes) (f : File) (a : Bytes)
    (h : storeNewEntropy L m pass salt nonce = some (f, a)) :
    (w.recover L E m pass salt nonce).stores.lookup (E.nameOf a) = some ⟨a, 100, none, true⟩
      ∧ ∀ (v : Wallet) (fs : Nat → Option File), fs (E.nameOf a) = some f → (f.parse L).map Prod.fst = some a →
          (v.start L E fs [E.nameOf a]).stores.lookup (E.nameOf a) = some ⟨a, E.maxIndex, none, true⟩ := by
  refine ⟨by simp [Wallet.recover, h, lookup_setKey], ?_⟩
  intro v fs hf hp
  cases hq : f.parse L with
  | none => rw [hq] at hp; cases hp
  | some x =>
    obtain ⟨b, y⟩ := x
    rw [hq] at hp
    simp only [Option.map_some, Option.some.injEq] at hp
    subst hp
    simp [Wallet.start, Wallet.add, Ref.path, hf, hq, Wallet.get, lookup_setKey]

/-- **A locked store gives the keys of the empty seed.** `GetPrivateKey` of a
locked store is that of a store with an empty seed; the keys of the file itself
are not given unless they are those. -/
theorem private_key_locked (L : Lib) (s : Store) (a : Bytes) (hs : s.seed = none) (hm : s.max ≤ 2 ^ 31) (k : Key) (i : Nat) :
    s.privateKey L a = .ok (k, i) → i < s.max ∧ k = account L [] i ∧ k.address L = a := by
  unfold Store.privateKey
  rw [hs]
  rcases find_cases L [] a s.max hm with ⟨k', i', h1, h2, h3, h4⟩ | ⟨h1, h2⟩
  · simp only [Option.getD_none, h1, Res.ok.injEq, Prod.mk.injEq]
    rintro ⟨rfl, rfl⟩
    exact ⟨h2, h3, h4⟩
  · simp only [Option.getD_none, h1]
    intro h; cases h

/-! ## Listeners -/

/-- The wallet has at most one listener, with the number 1. -/
theorem one_listener (L : Lib) (E : Env) (ops : List Op) :
    (Wallet.run L E ops).index = 0 ∧ ((Wallet.run L E ops).lis = [] ∨ ∃ l, (Wallet.run L E ops).lis = [(1, l)]) := by
  have hu : ∀ (w : Wallet) fs r pass, (w.unlock L E fs r pass).1.index = w.index ∧ (w.unlock L E fs r pass).1.lis = w.lis := by
    intro w fs r pass
    unfold Wallet.unlock
    split
    · exact ⟨rfl, rfl⟩
    · split <;> exact ⟨rfl, rfl⟩
  have hlk : ∀ (w : Wallet) r, (w.lock E r).1.index = w.index ∧ (w.lock E r).1.lis = w.lis := by
    intro w r
    unfold Wallet.lock
    split <;> exact ⟨rfl, rfl⟩
  have ha : ∀ (w : Wallet) fs r, (w.add L E fs r).index = w.index ∧ (w.add L E fs r).lis = w.lis := by
    intro w fs r
    unfold Wallet.add
    split
    · exact ⟨rfl, rfl⟩
    · split
      · exact ⟨rfl, rfl⟩
      · split <;> exact ⟨rfl, rfl⟩
  have same : ∀ (w v : Wallet), v.index = w.index ∧ v.lis = w.lis → (w.index = 0 ∧ (w.lis = [] ∨ ∃ l, w.lis = [(1, l)])) →
      v.index = 0 ∧ (v.lis = [] ∨ ∃ l, v.lis = [(1, l)]) := by
    rintro w v ⟨h1, h2⟩ h
    rw [h1, h2]; exact h
  induction ops using List.reverseRecOn with
  | nil => exact ⟨rfl, Or.inl rfl⟩
  | append_singleton ops op ih =>
    rw [run_snoc]
    cases op with
    | unlock fs r pass => exact same _ _ (hu _ _ _ _) ih
    | search fs r a pass =>
      simp only [Wallet.step, (search_wallet L E fs _ r a pass).1]
      exact same _ _ (hu _ _ _ _) ih
    | lock r => exact same _ _ (hlk _ _) ih
    | add fs r => exact same _ _ (ha _ _ _) ih
    | remove r =>
      refine same _ _ ?_ ih
      simp only [Wallet.step, Wallet.remove]
      split
      · exact ⟨rfl, rfl⟩
      · split <;> exact hlk _ _
    | refresh fs order => exact ih
    | recover m pass salt nonce =>
      refine same _ _ ?_ ih
      simp only [Wallet.step, Wallet.recover]
      split <;> exact ⟨rfl, rfl⟩
    | start fs files =>
      refine same _ _ ?_ ih
      simp only [Wallet.step, Wallet.start]
      have : ∀ (fl : List Nat) (v : Wallet), (fl.foldl (fun w p => w.add L E fs (.abs p)) v).index = v.index
          ∧ (fl.foldl (fun w p => w.add L E fs (.abs p)) v).lis = v.lis := by
        intro fl
        induction fl with
        | nil => exact fun _ => ⟨rfl, rfl⟩
        | cons x t ih => exact fun v => ⟨(ih _).1.trans (ha _ _ _).1, (ih _).2.trans (ha _ _ _).2⟩
      exact this _ _
    | stop => exact ih
    | addListener l =>
      simp only [Wallet.step, Wallet.addListener]
      refine ⟨ih.1, Or.inr ⟨l, ?_⟩⟩
      rw [ih.1]
      rcases ih.2 with h | ⟨l', h⟩ <;> rw [h] <;> simp [setKey]
    | removeListener id =>
      simp only [Wallet.step, Wallet.removeListener]
      refine ⟨ih.1, ?_⟩
      rcases ih.2 with h | ⟨l', h⟩
      · rw [h]; exact Or.inl rfl
      · rw [h]
        by_cases h1 : id = 1
        · left; simp [delKey, h1]
        · right; exact ⟨l', by simp [delKey, Ne.symm h1]⟩

/-- **C116 fails: a second listener replaces the first**, after every history, and
both are told the same number, so that removing either removes the one left. -/
theorem second_listener_replaces (L : Lib) (E : Env) (ops : List Op) (l l' : Nat) :
    let w := Wallet.run L E ops
    ((w.addListener l).1.addListener l').1.lis = [(1, l')]
      ∧ (w.addListener l).2 = 1 ∧ ((w.addListener l).1.addListener l').2 = 1
      ∧ (((w.addListener l).1.addListener l').1.removeListener 1).lis = [] := by
  obtain ⟨h1, h2⟩ := one_listener L E ops
  rcases h2 with h | ⟨x, h⟩ <;> simp [Wallet.addListener, Wallet.removeListener, h, h1, setKey, delKey]

/-- Stores made by the wallet tell it what happens to them. -/
theorem all_told (L : Lib) (E : Env) (ops : List Op) : ∀ e ∈ (Wallet.run L E ops).stores, e.2.told = true := by
  have hset : ∀ (m : List (Nat × Store)) k s, (∀ e ∈ m, e.2.told = true) → s.told = true → ∀ e ∈ setKey m k s, e.2.told = true := by
    intro m k s h hs e he
    simp only [setKey, List.mem_append, List.mem_filter, List.mem_singleton] at he
    rcases he with he | rfl
    · exact h e he.1
    · exact hs
  have hmem : ∀ (m : List (Nat × Store)) k s, m.lookup k = some s → (k, s) ∈ m := by
    intro m k s
    induction m with
    | nil => simp
    | cons e t ih =>
      obtain ⟨x, y⟩ := e
      by_cases hk : k = x
      · subst hk; simp [List.lookup]; intro h; exact Or.inl h.symm
      · have hb : (k == x) = false := by simpa using hk
        simp only [List.lookup, hb]
        exact fun h => List.mem_cons_of_mem _ (ih h)
  have hu : ∀ (w : Wallet) fs r pass, (∀ e ∈ w.stores, e.2.told = true) → ∀ e ∈ (w.unlock L E fs r pass).1.stores, e.2.told = true := by
    intro w fs r pass h
    unfold Wallet.unlock
    split
    · exact h
    · rename_i s hs
      split
      · exact hset _ _ _ h (h _ (hmem _ _ _ hs))
      all_goals exact h
  have hl : ∀ (w : Wallet) r, (∀ e ∈ w.stores, e.2.told = true) → ∀ e ∈ (w.lock E r).1.stores, e.2.told = true := by
    intro w r h
    unfold Wallet.lock
    split
    · exact h
    · rename_i s hs
      exact hset _ _ _ h (h _ (hmem _ _ _ hs))
  have ha : ∀ (w : Wallet) fs r, (∀ e ∈ w.stores, e.2.told = true) → ∀ e ∈ (w.add L E fs r).stores, e.2.told = true := by
    intro w fs r h
    unfold Wallet.add
    split
    · exact h
    · split
      · exact h
      · split
        · exact h
        · exact hset _ _ _ h rfl
  induction ops using List.reverseRecOn with
  | nil => simp [Wallet.run, Wallet.new]
  | append_singleton ops op ih =>
    rw [run_snoc]
    cases op with
    | unlock fs r pass => exact hu _ _ _ _ ih
    | search fs r a pass => simp only [Wallet.step, (search_wallet L E fs _ r a pass).1]; exact hu _ _ _ _ ih
    | lock r => exact hl _ _ ih
    | add fs r => exact ha _ _ _ ih
    | remove r =>
      simp only [Wallet.step, Wallet.remove]
      split
      · exact ih
      · split
        · exact hl _ _ ih
        · exact fun e he => hl _ r ih e (List.mem_filter.1 he).1
    | refresh fs order => exact fun e he => ih e (List.mem_filter.1 he).1
    | recover m pass salt nonce =>
      simp only [Wallet.step, Wallet.recover]
      split
      · exact ih
      · exact hset _ _ _ ih rfl
    | start fs files =>
      simp only [Wallet.step, Wallet.start]
      have : ∀ (fl : List Nat) (v : Wallet), (∀ e ∈ v.stores, e.2.told = true) →
          ∀ e ∈ (fl.foldl (fun w p => w.add L E fs (.abs p)) v).stores, e.2.told = true := by
        intro fl
        induction fl with
        | nil => exact fun _ h => h
        | cons x t ih => exact fun v h => ih _ (ha _ _ _ h)
      exact this _ _ (by simp)
    | stop => simp [Wallet.step, Wallet.stop]
    | addListener l => exact ih
    | removeListener id => exact ih

/-- **C116 (partial: one listener).** After every history with a listener left,
that listener, and nobody else, is told once of each unlocking that succeeds and
of each lock of a listed store, with the file and with what happened.  (That
every added listener is told does not hold: `second_listener_replaces`.) -/
theorem listener_told_partial (L : Lib) (E : Env) (ops : List Op) (l : Nat) (hl : (Wallet.run L E ops).lis = [(1, l)])
    (r : Ref) :
    let w := Wallet.run L E ops
    (w.Listed (r.path E) → (w.step L E (.lock r)).2 = [⟨l, r.path E, false⟩])
      ∧ (w.Listed (r.path E) → (w.step L E (.remove r)).2 = [⟨l, r.path E, false⟩])
      ∧ ∀ fs pass, (w.step L E (.unlock fs r pass)).2
          = if (w.unlock L E fs r pass).2.1 = .ok () then [⟨l, r.path E, true⟩] else [] := by
  have told : ∀ s u, (Wallet.run L E ops).get E r = some s → (Wallet.run L E ops).tell s (r.path E) u = [⟨l, r.path E, u⟩] := by
    intro s u hs
    have : s.told = true := by
      have hmem : ∀ (m : List (Nat × Store)) k s, m.lookup k = some s → (k, s) ∈ m := by
        intro m k s
        induction m with
        | nil => simp
        | cons e t ih =>
          obtain ⟨x, y⟩ := e
          by_cases hk : k = x
          · subst hk; simp [List.lookup]; intro h; exact Or.inl h.symm
          · have hb : (k == x) = false := by simpa using hk
            simp only [List.lookup, hb]
            exact fun h => List.mem_cons_of_mem _ (ih h)
      exact all_told L E ops _ (hmem _ _ _ hs)
    simp [Wallet.tell, this, hl]
  intro w
  have hlock : w.Listed (r.path E) → (w.lock E r).2 = [⟨l, r.path E, false⟩] := by
    rintro ⟨s, hs⟩
    have hs' : w.get E r = some s := hs
    simp only [Wallet.lock, hs']
    exact told s false hs'
  refine ⟨hlock, ?_, ?_⟩
  · rintro ⟨s, hs⟩
    have hs' : w.get E r = some s := hs
    simp only [Wallet.step, Wallet.remove, hs']
    cases r.raw with
    | none => exact hlock ⟨s, hs⟩
    | some _ => exact hlock ⟨s, hs⟩
  · intro fs pass
    simp only [Wallet.step]
    by_cases hf : w.get E r = none ∨ ∀ seed, extractSeed L (fs (r.path E)) pass ≠ .ok seed
    · obtain ⟨_, h2, h3⟩ := unlock_fails (L := L) (w := w) (pass := pass) hf
      rw [if_neg h3]; exact h2
    · simp only [not_or, Classical.not_forall, Classical.not_not] at hf
      obtain ⟨hg, sd, he⟩ := hf
      obtain ⟨s, hs⟩ := Option.ne_none_iff_exists'.1 hg
      rw [unlock_ok hs he, if_pos rfl]
      exact told s true hs

/-! ## A case -/

/-- Surroundings for the example: one file, ten accounts. -/
def exEnv : Env := ⟨id, fun _ => 5, 10⟩

/-- A wallet is recovered, a listener added, and the file unlocked with its
passphrase: the file counts as opened, the listener was told, and the third
account is found. -/
example : ∃ f, let ops := [Op.recover (109 :: [1, 2, 3, 4]) [7] [8] (List.replicate 12 9), .addListener 3,
      .unlock (fun _ => some f) (.abs 5) [7]]
    OpenedBy exLib exEnv ops 5 (109 :: [1, 2, 3, 4])
      ∧ (Wallet.run exLib exEnv ops).lis = [(1, 3)]
      ∧ ∃ k i, accountIn exLib ((account exLib (109 :: [1, 2, 3, 4]) 3).address exLib) (Wallet.run exLib exEnv ops).stores
          = .ok (5, k, i) := by
  obtain ⟨f, hf⟩ := store_succeeds exLib (109 :: [1, 2, 3, 4]) [1, 2, 3, 4] [7] [8] (List.replicate 12 9) ([7] ++ [8]) rfl rfl
  have hs : extractSeed exLib (some f) [7] = .ok (109 :: [1, 2, 3, 4]) :=
    (stored_opens exLib_sound _ [1, 2, 3, 4] _ _ _ ⟨rfl, rfl⟩ rfl hf).2.2
  refine ⟨f, ?_⟩
  intro ops
  have hrun : Wallet.run exLib exEnv ops
      = ⟨[(5, ⟨(account exLib (109 :: [1, 2, 3, 4]) 0).address exLib, 100, some (109 :: [1, 2, 3, 4]), true⟩)], [(1, 3)], 0⟩ := by
    have h1 : Wallet.run exLib exEnv [Op.recover (109 :: [1, 2, 3, 4]) [7] [8] (List.replicate 12 9)]
        = ⟨[(5, ⟨(account exLib (109 :: [1, 2, 3, 4]) 0).address exLib, 100, none, true⟩)], [], 0⟩ := by
      simp only [Wallet.run, List.foldl_cons, List.foldl_nil, Wallet.step, Wallet.recover, hf]
      rfl
    have h2 : Wallet.run exLib exEnv ops = (((Wallet.run exLib exEnv
        [Op.recover (109 :: [1, 2, 3, 4]) [7] [8] (List.replicate 12 9)]).step exLib exEnv (.addListener 3)).1.step exLib exEnv
          (.unlock (fun _ => some f) (.abs 5) [7])).1 := rfl
    rw [h2, h1]
    simp [Wallet.step, Wallet.addListener, Wallet.unlock, Wallet.get, Ref.path, hs, setKey]
  refine ⟨?_, by rw [hrun], ?_⟩
  · rw [← unlocked_iff_opened, hrun]; rfl
  · rw [hrun]
    rcases accountIn_spec exLib ((account exLib (109 :: [1, 2, 3, 4]) 3).address exLib)
      [(5, ⟨(account exLib (109 :: [1, 2, 3, 4]) 0).address exLib, 100, some (109 :: [1, 2, 3, 4]), true⟩)]
      (by simp) with ⟨_, p, s, seed, k, i, h1, h2, _⟩ | ⟨h1, _⟩
    · simp only [List.mem_singleton, Prod.mk.injEq] at h2
      rw [h2.1] at h1
      exact ⟨k, i, h1⟩
    · exact absurd ⟨_, List.mem_singleton.2 rfl, _, 3, rfl, (by decide), rfl⟩ h1

end Verif.Wallet

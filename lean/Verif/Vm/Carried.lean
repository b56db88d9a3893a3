import Verif.Vm.LedgerProps

/-!
# Sends that carry a list of sends

The list of sends of a block (`SendBlockList`) is meant for the receive blocks of contracts. A user's send may have one too: `verifySendBlockIntegrity`
(`ledger/verifier/account_verifier.go:213-251`) does not look at it, `verifyHash` (`:307-324`) asks nothing of its entries, the virtual machine hands the block
back with the list (`vm/vm.go:205-230`, `Copy`), and the index takes every hash of the list in as an open send at the carrying block
(`ledger/chain/index/insert.go:101-116`). A look-up by such a hash gives the carrying block itself (`ledger/chain/account_block.go:113-125`: only for a receive
block it looks in the list). So each hash is one more open send with the addressee, the token and the amount of the block.

`Verif.Lattice.attached_send_received_twice` shows the same in the model of the chain's stores. Here: what that does to the value in the ledger.
-/

namespace Verif.Vm
open Spec
variable {D : Type}

/-- An account block: one of `Step`, or a user's send with `n` hashes in its list of sends. -/
inductive Blk (D : Type)
  | plain (x : Step D)
  | carrying (a : Nat) (r : Request) (n : Nat)

/-- The ledger after a block, `index/insert.go:89-116` for the entries -/
def blkStep (e : Env) (L : Ledger D) : Blk D → Ledger D
  | .plain x => step e L x
  | .carrying a r n =>
    match userSend e L.bal a r with
    | none => L
    | some (b, s) => { L with bal := b, flight := L.flight ++ List.replicate (n + 1) s }

/-- A history of such blocks -/
def blkRun (e : Env) (L : Ledger D) (bs : List (Blk D)) : Ledger D := bs.foldl (blkStep e) L

namespace Spec

/-- The block carries no list: what `Verif.Vm.step` models. -/
def Blk.listless : Blk D → Prop
  | .plain _ => True
  | .carrying _ _ n => n = 0

/-- What a block makes out of nothing of a token: `n` times what its send costs, if the send is accepted. -/
def conjured (e : Env) (L : Ledger D) (t : Nat) : Blk D → Int
  | .plain _ => 0
  | .carrying a r n =>
    match userSend e L.bal a r with
    | none => 0
    | some (_, s) => n * carried t s

/-- The same for a history -/
def conjuredAll (e : Env) (t : Nat) : Ledger D → List (Blk D) → Int
  | _, [] => 0
  | L, b :: bs => conjured e L t b + conjuredAll e t (blkStep e L b) bs

end Spec

theorem inFlight_replicate (t n : Nat) (s : Send) : inFlight t (List.replicate n s) = n * carried t s := by
  induction n with
  | zero => simp [inFlight]
  | succ n ih =>
    have : inFlight t (List.replicate (n + 1) s) = carried t s + inFlight t (List.replicate n s) := by
      simp [inFlight, List.replicate_succ]
    rw [this, ih]
    push_cast
    ring

/-- One block: everything there is of a token, with what was burned and minted, changes by what the block makes out of nothing. -/
theorem blkStep_value (e : Env) (L : Ledger D) (b : Blk D) (t : Nat) :
    wealth t (blkStep e L b) + (blkStep e L b).burned t - (blkStep e L b).minted t = wealth t L + L.burned t - L.minted t + conjured e L t b := by
  cases b with
  | plain x =>
    have := value_conserved e L [x] t
    simp only [run, List.foldl_cons, List.foldl_nil] at this
    simp only [blkStep, conjured]
    omega
  | carrying a r n =>
    simp only [blkStep, conjured]
    cases h : userSend e L.bal a r with
    | none => simp
    | some q =>
      obtain ⟨b, s⟩ := q
      have hv := value_conserved e L [.send a r] t
      simp only [run, List.foldl_cons, List.foldl_nil, step, h] at hv
      simp only [wealth, inFlight_append, inFlight_replicate] at hv ⊢
      have h1 : inFlight t [s] = carried t s := by simp [inFlight]
      rw [h1] at hv
      push_cast
      linarith

/-- **C01**, exact for every history of blocks of every kind: value changes by mints, burns and by what sends that carry a list make out of nothing. -/
theorem value_exact (e : Env) (L : Ledger D) (bs : List (Blk D)) (t : Nat) :
    wealth t (blkRun e L bs) + (blkRun e L bs).burned t - (blkRun e L bs).minted t = wealth t L + L.burned t - L.minted t + conjuredAll e t L bs := by
  induction bs generalizing L with
  | nil => simp [blkRun, conjuredAll]
  | cons b bs ih =>
    have h1 := ih (blkStep e L b)
    have h2 := blkStep_value e L b t
    have h3 : blkRun e L (b :: bs) = blkRun e (blkStep e L b) bs := rfl
    rw [h3]
    simp only [conjuredAll]
    linarith

/-- **C01.** In every history without sends that carry a list, value changes by mints and burns only.

Missing: the full statement, over all histories of blocks, is false (`carrying_creates`). -/
theorem value_conserved_partial (e : Env) (L : Ledger D) (bs : List (Blk D)) (hl : ∀ b ∈ bs, Spec.Blk.listless b) (t : Nat) :
    wealth t (blkRun e L bs) + (blkRun e L bs).burned t - (blkRun e L bs).minted t = wealth t L + L.burned t - L.minted t := by
  rw [value_exact]
  have : ∀ (bs : List (Blk D)) (L : Ledger D), (∀ b ∈ bs, Spec.Blk.listless b) → conjuredAll e t L bs = 0 := by
    intro bs
    induction bs with
    | nil => intro _ _; rfl
    | cons b bs ih =>
      intro L hl
      simp only [conjuredAll]
      rw [ih _ (fun x hx => hl x (List.mem_cons_of_mem _ hx))]
      have := hl b (List.mem_cons_self ..)
      cases b with
      | plain x => rfl
      | carrying a r n =>
        have hn : n = 0 := this
        subst hn
        simp only [conjured]
        cases userSend e L.bal a r <;> simp
  rw [this bs L hl]
  omega

/-- **C01** is false: anyone who can pay for a transfer to themselves of `amount` ends with `n` times the amount more, for every `n`, by one send and `n + 1` receives.
Nothing is minted. -/
theorem carrying_creates (e : Env) (L : Ledger D) (a t amount n : Nat) (hb : e.builtin a = false) (hc : e.contract a = false) (hf : L.flight = [])
    (hp : (amount : Int) ≤ getBal a t L.bal) :
    let L' := blkRun e L (.carrying a ⟨.call, a, t, amount, none⟩ n :: List.replicate (n + 1) (.plain (.recv 0 .tooDeep)))
    getBal a t L'.bal = getBal a t L.bal + n * amount ∧ L'.flight = [] ∧ L'.minted = L.minted := by
  obtain ⟨b, hsb⟩ := subBalance_ok hp
  have hu : userSend e L.bal a ⟨.call, a, t, amount, none⟩ = some (b, ⟨a, a, .call, t, amount, 0⟩) := by
    simp only [userSend, sendCall, hb]
    have : canTransfer L.bal a t amount 0 = true := by simp [canTransfer, hp]
    simp [this, hsb]
  have hbal : getBal a t b = getBal a t L.bal - amount := by
    have := (subBalance_some hsb).2.1 a t
    simpa using this
  have hrec : ∀ (k : Nat) (M : Ledger D), M.flight = List.replicate k ⟨a, a, .call, t, amount, 0⟩ →
      let M' := blkRun e M (List.replicate k (.plain (.recv 0 .tooDeep)))
      getBal a t M'.bal = getBal a t M.bal + k * amount ∧ M'.flight = [] ∧ M'.minted = M.minted := by
    intro k
    induction k with
    | zero => intro M hM; exact ⟨by simp [blkRun], by simpa [blkRun] using hM, rfl⟩
    | succ k ih =>
      intro M hM
      have h0 : M.flight[0]? = some ⟨a, a, .call, t, amount, 0⟩ := by rw [hM]; simp [List.replicate_succ]
      have hs : blkStep e M (.plain (.recv 0 .tooDeep)) = credit M (List.replicate k ⟨a, a, .call, t, amount, 0⟩) ⟨a, a, .call, t, amount, 0⟩ := by
        simp only [blkStep, step, h0, receive, receiveCall, hb, hc]
        simp [hM, List.replicate_succ]
      have := ih (credit M (List.replicate k ⟨a, a, .call, t, amount, 0⟩) ⟨a, a, .call, t, amount, 0⟩) rfl
      simp only [List.replicate_succ, blkRun, List.foldl_cons, hs]
      obtain ⟨g1, g2, g3⟩ := this
      refine ⟨?_, g2, g3⟩
      simp only [blkRun] at g1
      rw [g1]
      simp only [credit, getBal_add]
      push_cast
      simp
      ring
  have := hrec (n + 1) { L with bal := b, flight := List.replicate (n + 1) ⟨a, a, .call, t, amount, 0⟩ } rfl
  have hstep : blkStep e L (.carrying a ⟨.call, a, t, amount, none⟩ n) = { L with bal := b, flight := List.replicate (n + 1) ⟨a, a, .call, t, amount, 0⟩ } := by
    simp only [blkStep, hu, hf, List.nil_append]
  have hrun : blkRun e L (.carrying a ⟨.call, a, t, amount, none⟩ n :: List.replicate (n + 1) (.plain (.recv 0 .tooDeep))) =
      blkRun e { L with bal := b, flight := List.replicate (n + 1) ⟨a, a, .call, t, amount, 0⟩ } (List.replicate (n + 1) (.plain (.recv 0 .tooDeep))) := by
    rw [← hstep]; rfl
  rw [hrun]
  obtain ⟨g1, g2, g3⟩ := this
  refine ⟨?_, g2, g3⟩
  rw [g1]
  simp only [hbal]
  push_cast
  ring

/-- **C02** for such histories too: balances never become negative. -/
theorem blkRun_nonneg (e : Env) (L : Ledger D) (h : ∀ a t, 0 ≤ getBal a t L.bal) (bs : List (Blk D)) (a t : Nat) : 0 ≤ getBal a t (blkRun e L bs).bal := by
  have : ∀ (bs : List (Blk D)) (L : Ledger D), (∀ a t, 0 ≤ getBal a t L.bal) → ∀ a t, 0 ≤ getBal a t (blkRun e L bs).bal := by
    intro bs
    induction bs with
    | nil => exact fun _ h => h
    | cons b bs ih =>
      intro L h
      refine ih (blkStep e L b) ?_
      cases b with
      | plain x => exact fun a t => balances_nonneg e L h [x] a t
      | carrying c r n =>
        intro a t
        have := balances_nonneg e L h [.send c r] a t
        simp only [run, List.foldl_cons, List.foldl_nil, step] at this
        simp only [blkStep]
        cases hu : userSend e L.bal c r with
        | none => exact h a t
        | some q => rw [hu] at this; exact this
  exact this bs L h a t

/-- Someone with 50 of token 7 sends themselves 50 with three hashes attached, receives four times and has 200. -/
example :
    let e : Env := ⟨fun _ => false, fun _ => false, true⟩
    let L : Ledger Nat := ⟨[((5, 7), 50)], fun _ => 0, [], fun _ => 0, fun _ => 0⟩
    getBal 5 7 (blkRun e L (.carrying 5 ⟨.call, 5, 7, 50, none⟩ 3 :: List.replicate 4 (.plain (.recv 0 .tooDeep)))).bal = 200 := by decide +kernel

end Verif.Vm

import Verif.Feed.QueryLemmas

/-! # Queries for logs (C102) -/

namespace Verif.Feed

/-- **C102 (part).** A query for the logs of one account gives exactly the logs that match the topics, of the blocks in the range, in order, cut to the page — when the range does not begin above the account's latest block. -/
theorem logs_query_exact_partial (chain : Nat → List QBlk) (addr : Nat) (hr : HRange) (topics : List (List Nat)) (pageIndex pageSize : Nat)
    (hlo : hr.lo ≤ (chain addr).length) (hup : hr.hi = 0 ∨ hr.lo ≤ hr.hi) (h1 : 1 ≤ pageSize) (h2 : pageSize ≤ 1000)
    (hw : pageIndex * pageSize < 2 ^ 64) :
    getLogs chain [(addr, hr)] topics pageIndex pageSize =
      some (((Spec.wanted topics (chain addr) hr addr).drop (pageIndex * pageSize)).take pageSize) := by
  unfold getLogs
  rw [if_neg (by simp), if_neg (by simp; omega), if_neg (by omega)]
  simp only [show ¬ pageSize = 0 by omega, if_false, scanAddrs]
  rw [scanAddr_eq _ _ _ _ _ rfl hlo, scan1_out _ _ _ rfl (by simp; omega), wanted_eq, Nat.mod_eq_of_lt hw]
  simp [List.map_take, List.map_drop]

/-- The pages of a query, one after the other, are the whole answer: nothing is left out and nothing comes twice. -/
theorem logs_pages_join (chain : Nat → List QBlk) (addr : Nat) (hr : HRange) (topics : List (List Nat)) (n pageSize : Nat)
    (hlo : hr.lo ≤ (chain addr).length) (hup : hr.hi = 0 ∨ hr.lo ≤ hr.hi) (h1 : 1 ≤ pageSize) (h2 : pageSize ≤ 1000)
    (hw : n * pageSize < 2 ^ 64) :
    ((List.range n).map fun i => (getLogs chain [(addr, hr)] topics i pageSize).getD []).flatten =
      (Spec.wanted topics (chain addr) hr addr).take (n * pageSize) := by
  induction n with
  | zero => simp
  | succ n ih =>
    have hle : n * pageSize ≤ (n + 1) * pageSize := Nat.mul_le_mul_right _ (by omega)
    rw [List.range_succ, List.map_append, List.flatten_append, ih (by omega)]
    simp only [List.map_cons, List.map_nil, List.flatten_cons, List.flatten_nil, List.append_nil]
    rw [logs_query_exact_partial chain addr hr topics n pageSize hlo hup h1 h2 (by omega)]
    simp only [Option.getD_some]
    rw [Nat.add_mul, Nat.one_mul, List.take_add]

/-- A page size of 0 stands for the largest one, 1000. -/
theorem logs_page_size_zero (chain : Nat → List QBlk) (order : List (Nat × HRange)) (topics : List (List Nat)) (pageIndex : Nat) :
    getLogs chain order topics pageIndex 0 = getLogs chain order topics pageIndex 1000 := by
  unfold getLogs
  simp

/-- The entries of all accounts, in the order in which the accounts are gone through. -/
theorem scanAddrs_small (topics : List (List Nat)) (ps : Nat) (chain : Nat → List QBlk) : ∀ (order : List (Nat × HRange)) (s : QSt),
    s.full = false → s.skip = 0 → (∀ e ∈ order, e.2.lo ≤ (chain e.1).length) →
    s.out.length + (order.flatMap fun e => Spec.wanted topics (chain e.1) e.2 e.1).length < ps →
    (scanAddrs topics ps chain order s).out =
      s.out ++ (order.flatMap fun e => Spec.wanted topics (chain e.1) e.2 e.1).map fun x => (x.log, x.hash, x.height)
  | [], s, _, _, _, _ => by simp [scanAddrs]
  | e :: es, s, hs, hk, hr, hl => by
    rw [scanAddrs, scanAddr_eq _ _ _ _ _ hs (hr e (by simp))]
    have hw := wanted_eq topics (chain e.1) e.2 e.1
    generalize hes : (((chain e.1).zipIdx 1).filter fun b => decide (Spec.InRange e.2 (chain e.1).length b.2)).flatMap (entries topics) = ents at hw ⊢
    have hlen : (Spec.wanted topics (chain e.1) e.2 e.1).length = ents.length := by rw [hw]; simp
    rw [List.flatMap_cons, List.length_append, hlen] at hl
    have hrest := scan1_rest ps ents s hs (by omega)
    have hout := scan1_out ps ents s hs (by omega)
    have hout' : (scan1 ps ents s).out = s.out ++ ents := by
      rw [hout, hk, List.drop_zero, List.take_of_length_le (by omega)]
    rw [scanAddrs_small topics ps chain es _ hrest.1 (by rw [hrest.2]; omega) (fun x hx => hr x (by simp [hx])) (by rw [hout', List.length_append]; omega),
      hout', List.flatMap_cons, List.map_append, hw, List.append_assoc]
    congr 1
    simp [List.map_map, Function.comp_def]

/-- A query for several accounts whose matching logs do not fill a page gives all of them, account by account in the order of the map's iteration; but every one of them carries the address of the account that came last. -/
theorem logs_query_many (chain : Nat → List QBlk) (order : List (Nat × HRange)) (topics : List (List Nat)) (pageSize last : Nat)
    (hlast : order.getLast?.map (·.1) = some last) (hlo : ∀ e ∈ order, e.2.lo ≤ (chain e.1).length) (hup : ∀ e ∈ order, e.2.hi = 0 ∨ e.2.lo ≤ e.2.hi)
    (h2 : pageSize ≤ 1000) (hfit : (order.flatMap fun e => Spec.wanted topics (chain e.1) e.2 e.1).length < pageSize) :
    getLogs chain order topics 0 pageSize =
      some ((order.flatMap fun e => Spec.wanted topics (chain e.1) e.2 e.1).map fun x => { x with addr := last }) := by
  unfold getLogs
  have hne : ¬ order.length = 0 := by
    intro h
    have : order = [] := List.length_eq_zero_iff.mp h
    simp [this] at hlast
  rw [if_neg hne, if_neg (by
    simp only [List.any_eq_true, decide_eq_true_eq, not_exists, not_and]
    intro e he h; have := hup e he; omega), if_neg (by omega)]
  simp only [show ¬ pageSize = 0 by omega, if_false, hlast, Option.getD_some]
  rw [scanAddrs_small topics pageSize chain order _ rfl (by simp) hlo (by simpa using hfit)]
  simp [List.map_map, Function.comp_def]

/-- A ledger with two accounts. Account 1 has two blocks with a log each, account 2 one. -/
def twoAccounts : Nat → List QBlk
  | 1 => [⟨11, some [⟨[5], 1⟩]⟩, ⟨12, some [⟨[5], 2⟩]⟩]
  | 2 => [⟨21, some [⟨[5], 3⟩]⟩]
  | _ => []

/-- A query that begins above the latest block gives the logs of the latest block, which nobody asked for: heights from 7 on, the answer has height 2. -/
theorem logs_query_below_range :
    getLogs twoAccounts [(1, ⟨7, 0⟩)] [] 0 10 = some [⟨⟨[5], 2⟩, 12, 2, 1⟩] ∧ Spec.wanted [] (twoAccounts 1) ⟨7, 0⟩ 1 = [] := by
  decide +kernel

/-- A query for two accounts gives the log of account 1 as one of account 2 when the map's iteration ends with account 2. -/
theorem logs_query_wrong_address :
    getLogs twoAccounts [(1, ⟨1, 1⟩), (2, ⟨1, 1⟩)] [] 0 10 = some [⟨⟨[5], 1⟩, 11, 1, 2⟩, ⟨⟨[5], 3⟩, 21, 1, 2⟩] ∧
      (⟨⟨[5], 1⟩, 11, 1, 2⟩ : QOut) ∉ Spec.wanted [] (twoAccounts 1) ⟨1, 1⟩ 1 ++ Spec.wanted [] (twoAccounts 2) ⟨1, 1⟩ 2 := by
  decide +kernel

/-- With two accounts a page of one log has two, and the second of them comes again on the next page but one. -/
theorem logs_query_page_overflow :
    getLogs twoAccounts [(1, ⟨1, 2⟩), (2, ⟨1, 1⟩)] [] 0 1 = some [⟨⟨[5], 1⟩, 11, 1, 2⟩, ⟨⟨[5], 3⟩, 21, 1, 2⟩] ∧
    getLogs twoAccounts [(1, ⟨1, 2⟩), (2, ⟨1, 1⟩)] [] 2 1 = some [⟨⟨[5], 3⟩, 21, 1, 2⟩] := by
  decide +kernel

end Verif.Feed

import Verif.Net.CodecProps
import Verif.Net.HandshakeProps

/-!
# Messages and handshakes: cases that meet the hypotheses -/

namespace Verif.Net.Examples

open Verif.Bytes

/-- A compression that takes one zero byte off the front of contents that begin with two. -/
def toy : Zip where
  enc p := if p.take 2 = [0, 0] then p.drop 1 else 1 :: p
  dec p := if p.take 1 = [0] then some (0 :: p) else if p.take 1 = [1] then some (p.drop 1) else none

theorem toy_faithful : toy.Faithful := by
  intro p
  simp only [toy]
  by_cases h : p.take 2 = [0, 0]
  · rw [if_pos h]
    match p, h with
    | b :: b' :: r, h =>
      simp only [List.take_succ_cons, List.take_zero, List.cons.injEq, and_true] at h
      obtain ⟨rfl, rfl⟩ := h
      simp
  · rw [if_neg h]
    simp

/-- Messages with ids of one, two and four bytes, compressed or not, and an empty one. -/
def sent : List Msg := [⟨1, 7, [0, 0, 5]⟩, ⟨2, 300, [9]⟩, ⟨3, 70000, [1, 2, 3]⟩, ⟨4, 0, []⟩]

example : ∀ m ∈ sent, Fits toy 1 m := by
  simp [sent, Fits, squeeze, toy]

example : writeAll toy 1 sent = some [0x58, 1, 7, 2, 0, 5, 0x90, 2, 1, 44, 1, 9, 0xD0, 3, 0, 1, 17, 112, 3, 1, 2, 3, 0, 4] := by decide +kernel

example : readAll toy 9 [0x58, 1, 7, 2, 0, 5, 0x90, 2, 1, 44, 1, 9, 0xD0, 3, 0, 1, 17, 112, 3, 1, 2, 3, 0, 4] = (sent, []) := by decide +kernel

/-- Messages that meet the hypotheses of `large_misread`: every uncompressed content of that size. -/
theorem large_exists {n : Nat} (h1 : 2 ^ 24 ≤ n) (h2 : n < 2 ^ 32) : ∃ m : Msg, m.id = 0 ∧ (squeeze toy (n : Int) m.payload).2 = false ∧
    2 ^ 24 ≤ m.payload.length ∧ m.payload.length < 2 ^ 32 := by
  refine ⟨⟨1, 0, List.replicate n 0⟩, rfl, ?_, ?_, ?_⟩
  · unfold squeeze
    rw [if_neg]
    rw [List.length_replicate]
    omega
  · rw [List.length_replicate]; exact h1
  · rw [List.length_replicate]; exact h2

/-- Functions with the assumed laws, and the id 0 for which all keys give the secret 0. -/
def toyC : Crypto where
  hash b := be 32 (num b + 1)
  idOf k := be 32 (num k)
  secret k i := be 32 (num (be 32 (num k)) * num i)
  keyOf k := be 32 (num k)
  sign k m := be 32 (num k) ++ m
  verify p m s := decide (p ++ m = s)

theorem toyC_good : toyC.Good where
  hash_len b := be_length _ _
  secret_len k i := be_length _ _
  shared k k' := by
    simp only [toyC, Nat.mul_comm]
  key_len k := be_length _ _
  signed k m := by simp [toyC]

def gateOf (self : Bytes) (sbp : List Bytes) : Gate := ⟨self, [], [], [], fun k => k ∈ sbp, 3, 1, 60, 2, true⟩

/-- A plain node and a producer. -/
def alice : Node := ⟨1, [9], [11], none, 500, [1], gateOf (toyC.idOf [11]) [toyC.keyOf [77]]⟩
def bob : Node := ⟨1, [9], [12], some [77], 600, [2], gateOf (toyC.idOf [12]) [toyC.keyOf [77]]⟩

/-- They accept each other; the producer is taken for one. -/
example : ∃ answer, receive toyC bob 21 (opening toyC alice 20 (toyC.idOf [12])) = .ok (toyC.idOf [11], false, answer) ∧
    finish toyC alice (toyC.idOf [12]) answer = .ok (toyC.idOf [12], true) :=
  honest_pair (a := alice) (b := bob) (s1 := false) (s2 := true) toyC_good rfl rfl 20 21 (by decide +kernel) (by decide +kernel)

/-- A key of one byte stops the producer. -/
example : receive toyC bob 21 ⟨0, [], 0, 0, [], [], [1], []⟩ = .panic := odd_key_panics _ _ _ (by decide) (by decide)

/-- Calling the producer, Alice accepts her own message as an answer from an unknown third. -/
example : finish toyC alice (toyC.idOf [12]) { opening toyC alice 20 (toyC.idOf [12]) with id := be 32 99 } = .ok (be 32 99, false) :=
  echo_accepted toyC_good alice 20 _ _ (by decide +kernel)

theorem zero_weak (k : Bytes) : toyC.secret k (be 32 0) = be 32 0 := by
  simp only [toyC, num_be]
  rfl

/-- Somebody without a key is taken by Alice for the producer. -/
example : ∃ answer, receive toyC bob 21 ⟨1, be 32 0, 20, 0, [], [9], [], xor (toyC.hash (be 8 20)) (be 32 0)⟩ = .ok (be 32 0, false, answer) ∧
    ∃ ans, receive toyC alice 5000 { answer with id := be 32 0 } = .ok (be 32 0, true, ans) := by
  obtain ⟨answer, h1, h2⟩ := producer_impersonated toyC_good zero_weak (p := bob) rfl 21 20 0 [] (sp := false) (by decide +kernel)
  exact ⟨answer, h1, h2 alice 5000 rfl rfl (by decide +kernel) (by decide +kernel)⟩

end Verif.Net.Examples

import Verif.Feed.ListenModel

/-! # Listeners (C105) -/

namespace Verif.Feed.Listen

/-- Who should be told: those who registered and did not unregister since, each once per registration. -/
def Spec.listening : List Nat → List Op → List Nat
  | ls, [] => ls
  | ls, .register l :: ops => Spec.listening (ls ++ [l]) ops
  | ls, .unregister l :: ops => Spec.listening (ls.erase l) ops

theorem unregister_eq (ls : List Nat) (l : Nat) : unregister ls l = ls.tail := by
  unfold unregister
  cases ls <;> simp [unregisterLoop]

/-- **C105 (part).** As long as everybody who unregisters is the one who has been listening for longest, those are told who should be. -/
theorem listeners_exact_partial : ∀ (ops : List Op) (ls : List Nat),
    (∀ pre post l, ops = pre ++ Op.unregister l :: post → (Spec.listening ls pre).head? = some l ∨ Spec.listening ls pre = []) →
    told (run ls ops) = Spec.listening ls ops
  | [], ls, _ => rfl
  | .register l :: ops, ls, h => by
    show told (run (register ls l) ops) = Spec.listening (ls ++ [l]) ops
    exact listeners_exact_partial ops (ls ++ [l]) fun pre post k hk => by
      have := h (.register l :: pre) post k (by rw [hk]; rfl)
      exact this
  | .unregister l :: ops, ls, h => by
    show told (run (unregister ls l) ops) = Spec.listening (ls.erase l) ops
    have h1 := h [] ops l rfl
    have heq : unregister ls l = ls.erase l := by
      rw [unregister_eq]
      rcases h1 with h1 | h1
      · cases ls with
        | nil => rfl
        | cons e es =>
          simp only [Spec.listening, List.head?_cons, Option.some.injEq] at h1
          subst h1
          simp
      · simp only [Spec.listening] at h1
        simp [h1]
    rw [heq]
    exact listeners_exact_partial ops (ls.erase l) fun pre post k hk => by
      have := h (.unregister l :: pre) post k (by rw [hk]; rfl)
      exact this

/-- **Counterexample.** When anybody but the first unregisters, that listener is told all the same, and the first one is not told any more: for all lists of different listeners. -/
theorem unregister_wrong (first : Nat) (others : List Nat) (l : Nat) (hl : l ∈ others) (hn : first ∉ others) :
    l ∈ told (unregister (first :: others) l) ∧ first ∉ told (unregister (first :: others) l) := by
  rw [unregister_eq]
  exact ⟨hl, hn⟩

/-- With the listeners of a node — the plugins, the printer of the pool, the on-road manager and the event system, in the order in which they register — the end of the event system takes the plugins off the list. -/
example : told (run [] [.register 1, .register 2, .register 3, .register 4, .unregister 4]) = [2, 3, 4] ∧
    Spec.listening [] [.register 1, .register 2, .register 3, .register 4, .unregister 4] = [1, 2, 3] := by decide

/-- A history that meets the hypothesis: the first of two leaves, a third comes, the second leaves. -/
example : told (run [] [.register 1, .register 2, .unregister 1, .register 3, .unregister 2]) = [3] := by decide

end Verif.Feed.Listen

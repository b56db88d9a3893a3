import Verif.Builtin.NameListModel
import Verif.Tactics

/-! C21: the comma separated list behaves as a list of names. -/

namespace Verif.Builtin.NameList

namespace Spec

/-- What the contract accepts as a name, as far as it matters here: not empty, no comma
(contracts_governance.go:54-66 allows letters, digits, "_", "." and single spaces). -/
def ValidName (n : Str) : Prop := n ≠ [] ∧ comma ∉ n

/-- The stored form of a list of names. -/
def stored : List Str → Str
  | [] => []
  | [n] => n
  | n :: ns => n ++ comma :: stored ns

end Spec
open Spec

theorem split_ne_nil : ∀ s : Str, split s ≠ []
  | [] => by simp [split]
  | x :: xs => by
    unfold split
    split
    · simp
    · split <;> simp

theorem split_plain : ∀ {s : Str}, comma ∉ s → split s = [s]
  | [], _ => rfl
  | x :: xs, h => by
    have h1 : x ≠ comma := fun q => h (q ▸ List.mem_cons_self)
    have h2 : comma ∉ xs := fun q => h (List.mem_cons_of_mem _ q)
    simp [split, h1, split_plain h2]

theorem split_append : ∀ (a b : Str), split (a ++ comma :: b) = split a ++ split b
  | [], b => by simp [split]
  | x :: xs, b => by
    have ih := split_append xs b
    by_cases hx : x = comma
    · simp [split, hx, ih]
    · have hne := split_ne_nil xs
      cases hs : split xs with
      | nil => exact absurd hs hne
      | cons w ws => simp [split, hx, ih, hs]

theorem stored_cons (n : Str) {ns : List Str} (h : ns ≠ []) : stored (n :: ns) = n ++ comma :: stored ns := by
  cases ns with
  | nil => exact absurd rfl h
  | cons _ _ => rfl

theorem split_stored : ∀ {ns : List Str}, ns ≠ [] → (∀ n ∈ ns, comma ∉ n) → split (stored ns) = ns
  | [n], _, h => by simpa [stored] using split_plain (h n List.mem_cons_self)
  | n :: m :: ns, _, h => by
    rw [stored_cons n (by simp), split_append, split_plain (h n List.mem_cons_self),
      split_stored (by simp) (fun x hx => h x (List.mem_cons_of_mem _ hx))]
    rfl

theorem stored_split : ∀ s : Str, stored (split s) = s
  | [] => rfl
  | x :: xs => by
    have ih := stored_split xs
    have hne := split_ne_nil xs
    by_cases hx : x = comma
    · simp only [split, hx, if_true]
      rw [stored_cons [] hne, ih]
      rfl
    · cases hs : split xs with
      | nil => exact absurd hs hne
      | cons w ws =>
        simp only [split, hx, if_false, hs]
        rw [hs] at ih
        cases ws with
        | nil => simpa [stored] using ih
        | cons w' ws' =>
          rw [stored_cons _ (by simp)] at ih ⊢
          simp [ih]

theorem stored_append {a b : List Str} (ha : a ≠ []) (hb : b ≠ []) : stored (a ++ b) = stored a ++ comma :: stored b := by
  induction a with
  | nil => exact absurd rfl ha
  | cons x xs ih =>
    cases xs with
    | nil => simp [stored_cons x hb, stored]
    | cons y ys =>
      rw [List.cons_append, stored_cons x (by simp), ih (by simp), stored_cons x (by simp)]
      simp

theorem stored_nil_iff {ns : List Str} (h : ∀ n ∈ ns, ValidName n) : stored ns = [] ↔ ns = [] := by
  constructor
  · intro hs
    cases ns with
    | nil => rfl
    | cons n ns =>
      have h1 := (h n List.mem_cons_self).1
      cases ns with
      | nil => exact absurd hs h1
      | cons m ms => rw [stored_cons n (by simp)] at hs; simp at hs
  · rintro rfl; rfl

theorem indexOf_some {pat : Str} : ∀ {s : Str} {i : Nat}, indexOf pat s = some i → ∃ r, s = s.take i ++ (pat ++ r)
  | [], i, h => by
    unfold indexOf at h
    by_cases hp : pat.isPrefixOf [] = true
    · simp only [hp, if_true, Option.some.injEq] at h
      obtain ⟨r, hr⟩ := List.isPrefixOf_iff_prefix.mp hp
      exact ⟨r, by simpa using hr.symm⟩
    · simp [hp] at h
  | x :: xs, i, h => by
    unfold indexOf at h
    by_cases hp : pat.isPrefixOf (x :: xs) = true
    · simp only [hp, if_true, Option.some.injEq] at h
      obtain ⟨r, hr⟩ := List.isPrefixOf_iff_prefix.mp hp
      subst h
      exact ⟨r, by simpa using hr.symm⟩
    · simp only [hp] at h
      obtain ⟨j, hj, rfl⟩ := Option.map_eq_some_iff.mp h
      obtain ⟨r, hr⟩ := indexOf_some hj
      refine ⟨r, ?_⟩
      simp only [List.take_succ_cons, List.cons_append]
      rw [← hr]

theorem indexOf_none {pat : Str} : ∀ {s : Str}, indexOf pat s = none → ∀ a r, s ≠ a ++ (pat ++ r)
  | [], h, a, r, hs => by
    unfold indexOf at h
    have : a = [] ∧ pat = [] ∧ r = [] := by simpa using (congrArg List.length hs).symm
    simp [this.2.1] at h
  | x :: xs, h, a, r, hs => by
    unfold indexOf at h
    by_cases hp : pat.isPrefixOf (x :: xs) = true
    · simp [hp] at h
    · simp only [hp] at h
      cases a with
      | nil =>
        apply hp
        exact List.isPrefixOf_iff_prefix.mpr ⟨r, by simpa using hs.symm⟩
      | cons y ys =>
        have hs' : xs = ys ++ (pat ++ r) := by simpa using (List.cons.inj hs).2
        exact indexOf_none (by simpa using h) ys r hs'

/-- **C21**: listing gives the names that were put in, in order. -/
theorem list_stored (ns : List Str) (h : ∀ n ∈ ns, ValidName n) : listNames (stored ns) = ns := by
  unfold listNames
  by_cases hn : ns = []
  · subst hn; rfl
  · have h1 : stored ns ≠ [] := fun q => hn ((stored_nil_iff h).mp q)
    have : (stored ns).length > 0 := List.length_pos_iff.mpr h1
    simp only [this, if_true]
    exact split_stored hn (fun n hm => (h n hm).2)

/-- **C21**: adding a name puts it at the end. -/
theorem add_stored (ns : List Str) (n : Str) (h : ∀ n ∈ ns, ValidName n) :
    addName (stored ns) n = stored (ns ++ [n]) := by
  unfold addName
  by_cases hn : ns = []
  · subst hn; rfl
  · have h1 : stored ns ≠ [] := fun q => hn ((stored_nil_iff h).mp q)
    have : ¬ (stored ns).length = 0 := fun q => h1 (List.length_eq_zero_iff.mp q)
    simp only [this, if_false]
    rw [stored_append hn (by simp)]
    simp [stored]

theorem erase_append {l r : List Str} {n : Str} (h : n ∉ l) : (l ++ n :: r).erase n = l ++ r := by
  rw [List.erase_append_right _ h, List.erase_cons_head]

/-- **C21**: deleting a name removes exactly that name and leaves the others as they are, in order, even if the name is
the beginning, the end or the middle of another one. -/
theorem delete_stored (ns : List Str) (n : Str) (h : ∀ n ∈ ns, ValidName n) (hn : ValidName n) (hd : ns.Nodup) :
    deleteName (stored ns) n = stored (ns.erase n) := by
  have hsp : ns ≠ [] → split (stored ns) = ns := fun q => split_stored q (fun n hm => (h n hm).2)
  have hne : stored ns ≠ [] → ns ≠ [] := by rintro q rfl; exact q rfl
  unfold deleteName
  by_cases h1 : stored ns = n
  · simp only [h1, if_true]
    have : ns = [n] := by
      rw [← hsp (hne (h1 ▸ hn.1)), h1, split_plain hn.2]
    rw [this]; simp [stored]
  · simp only [h1, if_false]
    by_cases h2 : (n ++ [comma]).isPrefixOf (stored ns) = true
    · simp only [h2, if_true]
      obtain ⟨r, hr⟩ := List.isPrefixOf_iff_prefix.mp h2
      have hr' : stored ns = n ++ comma :: r := by rw [← hr]; simp
      have hns : ns = n :: split r := by
        rw [← hsp (hne (by rw [hr']; simp)), hr', split_append, split_plain hn.2]; rfl
      rw [hr', show n.length + 1 = (n ++ [comma]).length by simp, show n ++ comma :: r = (n ++ [comma]) ++ r by simp,
        List.drop_left]
      rw [hns, List.erase_cons_head, stored_split]
    · simp only [h2]
      by_cases h3 : ([comma] ++ n).isSuffixOf (stored ns) = true
      · simp only [h3, if_true]
        obtain ⟨u, hu⟩ := List.isSuffixOf_iff_suffix.mp h3
        have hu' : stored ns = u ++ comma :: n := by rw [← hu]; simp
        have hns : ns = split u ++ [n] := by
          rw [← hsp (hne (by rw [hu']; simp)), hu', split_append, split_plain hn.2]
        rw [hns] at hd
        have hnot : n ∉ split u := by
          have := List.nodup_append.mp hd
          intro q
          exact this.2.2 n q n (by simp) rfl
        have hlen : (u ++ comma :: n).length - n.length - 1 = u.length := by simp; omega
        rw [hu', hlen, List.take_left]
        rw [hns, erase_append hnot, List.append_nil, stored_split]
        simp
      · simp only [h3]
        cases h4 : indexOf ([comma] ++ n ++ [comma]) (stored ns) with
        | some i =>
          simp only
          obtain ⟨r, hr⟩ := indexOf_some h4
          obtain ⟨a, ha⟩ : ∃ a, a = (stored ns).take i := ⟨_, rfl⟩
          rw [← ha] at hr
          have hr' : stored ns = a ++ comma :: (n ++ comma :: r) := by rw [hr]; simp
          have hns : ns = split a ++ n :: split r := by
            rw [← hsp (hne (by rw [hr']; simp)), hr', split_append, split_append, split_plain hn.2]; rfl
          have hi : i = a.length := by
            have : i ≤ (stored ns).length := by
              by_contra hc
              have h5 : (stored ns).take i = stored ns := List.take_of_length_le (by omega)
              rw [h5] at ha
              rw [ha] at hr'
              have := congrArg List.length hr'
              simp at this
            rw [ha, List.length_take]; omega
          have hpos : i > 0 := by
            rcases Nat.eq_zero_or_pos i with h0 | h0
            · have ha0 : a = [] := List.length_eq_zero_iff.mp (by omega)
              rw [ha0] at hns
              have : ([] : Str) ∈ ns := by rw [hns]; simp [split]
              exact absurd rfl (h [] this).1
            · exact h0
          have hnot : n ∉ split a := by
            rw [hns] at hd
            have := List.nodup_append.mp hd
            intro q
            exact this.2.2 n q n (by simp) rfl
          simp only [hpos, if_true]
          rw [← ha, hr', hi, show a.length + n.length + 1 = (a ++ comma :: n).length by simp; omega,
            show a ++ comma :: (n ++ comma :: r) = (a ++ comma :: n) ++ comma :: r by simp, List.drop_left]
          rw [hns, erase_append hnot, ← split_append, stored_split]
          simp
        | none =>
          simp only
          have hnm : n ∉ ns := by
            intro hm
            obtain ⟨p, q, hpq⟩ := List.append_of_mem hm
            by_cases hp : p = [] <;> by_cases hq : q = []
            · subst hp hq; exact h1 (by rw [hpq]; rfl)
            · subst hp
              apply h2
              rw [hpq, List.nil_append, stored_cons n hq]
              exact List.isPrefixOf_iff_prefix.mpr ⟨stored q, by simp⟩
            · subst hq
              apply h3
              rw [hpq, stored_append hp (by simp)]
              exact List.isSuffixOf_iff_suffix.mpr ⟨stored p, by simp [stored]⟩
            · refine indexOf_none h4 (stored p) (stored q) ?_
              rw [hpq, stored_append hp (by simp), stored_cons n hq]
              simp
          rw [List.erase_of_not_mem hnm]
          simp

/-- **C21**, seen through the list of names only: after deleting, every other name is still there, once. -/
theorem delete_keeps_others (ns : List Str) (n : Str) (h : ∀ n ∈ ns, ValidName n) (hn : ValidName n) (hd : ns.Nodup) (m : Str) :
    m ∈ listNames (deleteName (stored ns) n) ↔ m ∈ ns ∧ m ≠ n := by
  rw [delete_stored ns n h hn hd, list_stored _ (fun x hx => h x (List.mem_of_mem_erase hx)), hd.mem_erase_iff]
  exact and_comm

/-- "ab" in the list "ab,aab,b": a prefix and a suffix of others. -/
example : deleteName (stored [[97, 98], [97, 97, 98], [98]]) [98] = stored [[97, 98], [97, 97, 98]] ∧
    deleteName (stored [[97, 98], [97, 97, 98], [98]]) [97, 98] = stored [[97, 97, 98], [98]] ∧
    deleteName (stored [[97, 98], [98], [97, 97, 98]]) [98] = stored [[97, 98], [97, 97, 98]] := by decide +kernel

example : (∀ n ∈ [[97, 98], [97, 97, 98], [98]], ValidName n) ∧ ([[97, 98], [97, 97, 98], [98]] : List Str).Nodup := by
  constructor
  · intro n hn
    simp only [List.mem_cons, List.not_mem_nil, or_false] at hn
    rcases hn with rfl | rfl | rfl <;> exact ⟨by decide, by decide⟩
  · decide

end Verif.Builtin.NameList

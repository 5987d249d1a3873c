import Verif.Base.Post

/- Strict weak orders and the order of a binary heap kept in a list (mathematics, no model). -/
namespace KTL
variable {α : Type}

/-- What the C++ standard requires of a comparator (`[alg.sorting]`): a strict weak order. Specification, not code. -/
structure StrictWeak (comp : α → α → Bool) : Prop where
  irrefl : ∀ a, comp a a = false
  trans : ∀ a b c, comp a b = true → comp b c = true → comp a c = true
  incomp : ∀ a b c, comp a b = false → comp b a = false → comp b c = false → comp c b = false → comp a c = false ∧ comp c a = false

theorem StrictWeak.asymm {comp : α → α → Bool} (h : StrictWeak comp) {a b : α} (hab : comp a b = true) : comp b a = false := by
  cases hba : comp b a with
  | false => rfl
  | true => have := h.trans _ _ _ hab hba; rw [h.irrefl] at this; cases this

/-- "not after" is transitive -/
theorem StrictWeak.le_trans {comp : α → α → Bool} (h : StrictWeak comp) {a b c : α} (hab : comp b a = false) (hbc : comp c b = false) :
    comp c a = false := by
  cases hca : comp c a with
  | false => rfl
  | true =>
    cases hab' : comp a b with
    | true => rw [h.trans _ _ _ hca hab'] at hbc; cases hbc
    | false =>
      cases hbc' : comp b c with
      | true => rw [h.trans _ _ _ hbc' hca] at hab; cases hab
      | false => rw [(h.incomp a b c hab' hab hbc' hbc).2] at hca; cases hca

/-- the element in place `i` is not after the one in place `j`. Specification, not code. -/
def Le (comp : α → α → Bool) (zs : List α) (i j : Nat) : Prop :=
  ∀ x y, zs[i]? = some x → zs[j]? = some y → comp y x = false

/-- heap order. Specification, not code. -/
def HeapOrd (comp : α → α → Bool) (zs : List α) : Prop := ∀ j, j ≠ 0 → Le comp zs ((j - 1) / 2) j

theorem HeapOrd.root {comp : α → α → Bool} (hc : StrictWeak comp) {zs : List α} (h : HeapOrd comp zs) (k : Nat) : Le comp zs 0 k := by
  induction k using Nat.strongRecOn with
  | _ k ih =>
    intro r x hr hx
    by_cases hk : k = 0
    · subst hk
      rw [hr] at hx
      rw [Option.some.inj hx]
      exact hc.irrefl _
    · have hlt : (k - 1) / 2 < zs.length := by have := (List.getElem?_eq_some_iff.1 hx).1; omega
      have hp : zs[(k - 1) / 2]? = some zs[(k - 1) / 2] := List.getElem?_eq_getElem hlt
      exact hc.le_trans (ih _ (by omega) r _ hr hp) (h k hk _ _ hp hx)

theorem HeapOrd.nil {comp : α → α → Bool} : HeapOrd comp ([] : List α) := fun j _ x y hx _ => by simp at hx

/-- `zs` with the elements in places `i` and `p` exchanged -/
theorem swap_get {zs : List α} {i p : Nat} {a b : α} (hi : i < zs.length) (hp : p < zs.length) (j : Nat) :
    ((zs.set i a).set p b)[j]? = if j = p then some b else if j = i then some a else zs[j]? := by
  by_cases h1 : j = p
  · subst h1; rw [if_pos rfl, List.getElem?_set_self (by rw [List.length_set]; exact hp)]
  · rw [if_neg h1, List.getElem?_set_ne (Ne.symm h1)]
    by_cases h2 : j = i
    · subst h2; rw [if_pos rfl, List.getElem?_set_self hi]
    · rw [if_neg h2, List.getElem?_set_ne (Ne.symm h2)]

theorem swap_perm {zs : List α} {i p : Nat} {a b : α} (hi : zs[i]? = some b) (hp : zs[p]? = some a) : ((zs.set i a).set p b).Perm zs := by
  obtain ⟨h1, rfl⟩ := List.getElem?_eq_some_iff.1 hi
  obtain ⟨h2, rfl⟩ := List.getElem?_eq_some_iff.1 hp
  exact List.set_set_perm h1 h2

/-- heap order except that the element in place `i` may be too far down. Proof helper, not code. -/
structure UpInv (comp : α → α → Bool) (zs : List α) (i : Nat) : Prop where
  ord : ∀ j, j ≠ 0 → j ≠ i → Le comp zs ((j - 1) / 2) j
  skip : i ≠ 0 → ∀ j, j ≠ 0 → (j - 1) / 2 = i → Le comp zs ((i - 1) / 2) j

theorem UpInv.step {comp : α → α → Bool} (hc : StrictWeak comp) {zs : List α} {i : Nat} {v pv : α} (h : UpInv comp zs i) (h0 : i ≠ 0)
    (hi : zs[i]? = some v) (hp : zs[(i - 1) / 2]? = some pv) (hv : comp v pv = true) :
    UpInv comp ((zs.set i pv).set ((i - 1) / 2) v) ((i - 1) / 2) := by
  have h1 := (List.getElem?_eq_some_iff.1 hi).1
  have h2 := (List.getElem?_eq_some_iff.1 hp).1
  refine ⟨fun j hj0 hj x y hx hy => ?_, fun hp0 j hj0 hj x y hx hy => ?_⟩
  · rw [swap_get h1 h2] at hx hy
    rw [if_neg hj] at hy
    by_cases hji : j = i
    · subst hji
      rw [if_pos rfl] at hx hy
      rw [← Option.some.inj hx, ← Option.some.inj hy]
      exact hc.asymm hv
    · rw [if_neg hji] at hy
      by_cases hq : (j - 1) / 2 = (i - 1) / 2
      · rw [if_pos hq] at hx
        rw [← Option.some.inj hx]
        exact hc.le_trans (hc.asymm hv) (h.ord j hj0 hji _ _ (by rw [hq]; exact hp) hy)
      · rw [if_neg hq] at hx
        by_cases hq' : (j - 1) / 2 = i
        · rw [if_pos hq'] at hx
          rw [← Option.some.inj hx]
          exact h.skip h0 j hj0 hq' _ _ hp hy
        · rw [if_neg hq'] at hx
          exact h.ord j hj0 hji _ _ hx hy
  · rw [swap_get h1 h2] at hx hy
    rw [if_neg (by omega), if_neg (by omega)] at hx
    rw [if_neg (by omega)] at hy
    have hg := h.ord ((i - 1) / 2) hp0 (by omega) _ _ hx hp
    by_cases hji : j = i
    · rw [if_pos hji] at hy
      rw [← Option.some.inj hy]; exact hg
    · rw [if_neg hji] at hy
      exact hc.le_trans hg (h.ord j hj0 hji _ _ (by rw [hj]; exact hp) hy)

theorem UpInv.stop {comp : α → α → Bool} {zs : List α} {i : Nat} (h : UpInv comp zs i) (hi : i ≠ 0 → Le comp zs ((i - 1) / 2) i) : HeapOrd comp zs := by
  intro j hj
  by_cases hji : j = i
  · subst hji; exact hi hj
  · exact h.ord j hj hji

theorem UpInv.start {comp : α → α → Bool} {xs : List α} (h : HeapOrd comp xs) (v : α) : UpInv comp (xs ++ [v]) xs.length := by
  refine ⟨fun j hj0 hj x y hx hy => ?_, fun _ j hj0 hj x y hx hy => ?_⟩
  · have := (List.getElem?_eq_some_iff.1 hy).1
    rw [List.length_append, List.length_singleton] at this
    rw [List.getElem?_append_left (by omega)] at hx hy
    exact h j hj0 _ _ hx hy
  · have := (List.getElem?_eq_some_iff.1 hy).1
    rw [List.length_append, List.length_singleton] at this
    omega

/-- heap order except that the element in place `i` may be too far up. Proof helper, not code. -/
structure DownInv (comp : α → α → Bool) (zs : List α) (i : Nat) : Prop where
  ord : ∀ j, j ≠ 0 → (j - 1) / 2 ≠ i → Le comp zs ((j - 1) / 2) j
  skip : i ≠ 0 → ∀ j, j ≠ 0 → (j - 1) / 2 = i → Le comp zs ((i - 1) / 2) j

theorem DownInv.step {comp : α → α → Bool} (hc : StrictWeak comp) {zs : List α} {i c : Nat} {v cv : α} (h : DownInv comp zs i) (h0 : c ≠ 0)
    (hci : (c - 1) / 2 = i) (hi : zs[i]? = some v) (hcv : zs[c]? = some cv) (hv : comp cv v = true)
    (hbest : ∀ j, j ≠ 0 → (j - 1) / 2 = i → Le comp zs c j) :
    DownInv comp ((zs.set c v).set i cv) c := by
  have h1 := (List.getElem?_eq_some_iff.1 hi).1
  have h2 := (List.getElem?_eq_some_iff.1 hcv).1
  refine ⟨fun j hj0 hj x y hx hy => ?_, fun _ j hj0 hj x y hx hy => ?_⟩
  · rw [swap_get h2 h1] at hx hy
    by_cases hji : j = i
    · subst hji
      rw [if_pos rfl] at hy
      rw [if_neg (by omega), if_neg (by omega)] at hx
      rw [← Option.some.inj hy]
      exact h.skip hj0 c h0 hci _ _ hx hcv
    · rw [if_neg hji] at hy
      by_cases hjc : j = c
      · subst hjc
        rw [if_pos rfl] at hy
        rw [if_pos hci] at hx
        rw [← Option.some.inj hx, ← Option.some.inj hy]
        exact hc.asymm hv
      · rw [if_neg hjc] at hy
        by_cases hq : (j - 1) / 2 = i
        · rw [if_pos hq] at hx
          rw [← Option.some.inj hx]
          exact hbest j hj0 hq _ _ hcv hy
        · rw [if_neg hq, if_neg hj] at hx
          exact h.ord j hj0 hq _ _ hx hy
  · rw [swap_get h2 h1] at hx hy
    rw [if_pos hci] at hx
    rw [if_neg (by omega), if_neg (by omega)] at hy
    rw [← Option.some.inj hx]
    exact h.ord j hj0 (by omega) _ _ (by rw [hj]; exact hcv) hy

theorem DownInv.stop {comp : α → α → Bool} {zs : List α} {i : Nat} (h : DownInv comp zs i)
    (hi : ∀ j, j ≠ 0 → (j - 1) / 2 = i → Le comp zs i j) : HeapOrd comp zs := by
  intro j hj
  by_cases hq : (j - 1) / 2 = i
  · rw [hq]; exact hi j hj hq
  · exact h.ord j hj hq

theorem DownInv.start {comp : α → α → Bool} {xs : List α} (h : HeapOrd comp xs) (n : Nat) (v : α) : DownInv comp ((xs.set 0 v).take n) 0 := by
  refine ⟨fun j hj0 hj x y hx hy => ?_, fun h0 => absurd rfl h0⟩
  rw [List.getElem?_take] at hx hy
  split at hx <;> split at hy <;> try contradiction
  rw [List.getElem?_set_ne (Ne.symm hj)] at hx
  rw [List.getElem?_set_ne (by omega)] at hy
  exact h j hj0 _ _ hx hy

end KTL

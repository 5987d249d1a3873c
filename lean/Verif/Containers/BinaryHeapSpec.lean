import Verif.Containers.BinaryHeap
import Verif.Containers.HeapOrder

/- What the functions of `Containers/BinaryHeap.lean` do to the objects in memory (proof machinery). -/
namespace KTL
variable {α : Type}

/-- places with living objects. Proof helper, not code. -/
def live (xs : List α) : Slots α := xs.map fun v => some ⟨v, true⟩

/-- no place needs a destructor call. Proof helper, not code. -/
def NoneAlive (sl : Slots α) : Prop := ∀ y ∈ sl, y.any Obj.alive = false

theorem live_length {xs : List α} : (live xs).length = xs.length := List.length_map ..
theorem live_append {xs ys : List α} : live (xs ++ ys) = live xs ++ live ys := List.map_append ..

theorem live_get {xs : List α} {rest : Slots α} {k : Nat} {v : α} (h : xs[k]? = some v) : (live xs ++ rest)[k]? = some (some ⟨v, true⟩) := by
  have := (List.getElem?_eq_some_iff.1 h).1
  rw [List.getElem?_append_left (by rw [live_length]; exact this)]
  unfold live
  rw [List.getElem?_map, h]; rfl

theorem live_set {xs : List α} {rest : Slots α} {k : Nat} (h : k < xs.length) (v : α) :
    (live xs ++ rest).set k (some ⟨v, true⟩) = live (xs.set k v) ++ rest := by
  rw [List.set_append_left _ _ (by rw [live_length]; exact h)]
  unfold live
  rw [List.map_set]

theorem set_mid {β : Type} (l : List β) (y z : β) (l' : List β) : (l ++ y :: l').set l.length z = l ++ z :: l' := by
  rw [List.set_append_right _ _ (Nat.le_refl _), Nat.sub_self, List.set_cons_zero]

theorem get_mid {β : Type} (l : List β) (y : β) (l' : List β) : (l ++ y :: l')[l.length]? = some y := by
  rw [List.getElem?_append_right (Nat.le_refl _), Nat.sub_self, List.getElem?_cons_zero]

section
variable {P : List (Nat × List UInt8) → HProp} [Store P] {E : Elt α} {o : Objs α} {Γ : List (Nat × Slots α)} {comp : α → α → Bool}

theorem BHeap.destroyAll_spec (hE : E.Ok) {q : Nat} (xs : List α) (pre rest : Slots α) :
    Triple (TStore P E o ((q, pre ++ (live xs ++ rest)) :: Γ)) (BHeap.destroyAll E q pre.length xs.length o)
      (fun o' h => ∃ ds : Slots α, ds.length = xs.length ∧ NoneAlive ds ∧ TStore P E o' ((q, pre ++ (ds ++ rest)) :: Γ) h) := by
  induction xs generalizing pre o with
  | nil => exact Triple.pure _ (fun h hh => ⟨[], rfl, fun _ h => by simp at h, hh⟩)
  | cons x xs ih =>
    have e : pre ++ (live (x :: xs) ++ rest) = pre ++ some ⟨x, true⟩ :: (live xs ++ rest) := rfl
    rw [e]
    refine Triple.bind (triple_destroy hE (get_mid ..) rfl) (fun o' => ?_)
    rw [set_mid]
    have := ih (o := o') (pre ++ [some ⟨x, false⟩])
    rw [List.length_append, List.length_singleton, List.append_assoc] at this
    refine this.post (fun o'' h ⟨ds, h1, h2, h3⟩ => ⟨some ⟨x, false⟩ :: ds, by rw [List.length_cons, h1, List.length_cons], ?_, ?_⟩)
    · intro y hy
      rcases List.mem_cons.1 hy with rfl | hy
      · rfl
      · exact h2 y hy
    · rw [List.append_assoc] at h3; exact h3

theorem BHeap.copyAll_spec (hE : E.Ok) {dst src : Nat} (xs pre : List α) (ys : List α) (free rest : Slots α) (hl : pre.length = ys.length)
    (hf : xs.length ≤ free.length) (hfree : NoneAlive free) :
    Triple (TStore P E o ((dst, live ys ++ free) :: (src, live (pre ++ xs) ++ rest) :: Γ)) (BHeap.copyAll E dst src ys.length xs.length o)
      (fun o' => TStore P E o' ((dst, live (ys ++ xs) ++ free.drop xs.length) :: (src, live (pre ++ xs) ++ rest) :: Γ)) := by
  induction xs generalizing pre ys free o with
  | nil => exact Triple.pure _ (fun h hh => by rw [List.append_nil]; exact hh)
  | cons x xs ih =>
    cases free with
    | nil => simp at hf
    | cons y free =>
      show Triple _ (E.read o (src + ys.length * E.size) >>= fun v => _) _
      rw [TStore.perm (.swap _ _ _)]
      refine Triple.bind (triple_read hE (live_get (by rw [← hl]; exact get_mid ..)) rfl) (fun v => Triple.and fun hv => ?_)
      have hs := Eq.symm hv; dsimp only at hs; subst hs
      rw [TStore.perm (.swap _ _ _)]
      refine Triple.bind (triple_construct hE (y := y) (by rw [← live_length]; exact get_mid ..) (by rw [hfree y (by simp)]; rfl) _) (fun o' => ?_)
      have e1 : (live ys ++ y :: free).set ys.length (some ⟨x, true⟩) = live (ys ++ [x]) ++ free := by
        rw [live_append, List.append_assoc]
        conv => lhs; rw [← live_length, set_mid]
        rfl
      rw [e1]
      have e2 : pre ++ x :: xs = (pre ++ [x]) ++ xs := by rw [List.append_assoc]; rfl
      have := ih (o := o') (pre ++ [x]) (ys ++ [x]) free (by rw [List.length_append, List.length_append, hl]) (by simpa using hf)
        (fun z hz => hfree z (by simp [hz]))
      rw [← e2, List.length_append, List.length_singleton, List.append_assoc] at this
      exact this

theorem BHeap.moveAll_spec (hE : E.Ok) {dst src : Nat} (xs ms : List α) (ys : List α) (free rest : Slots α) (hl : ms.length = ys.length)
    (hf : xs.length ≤ free.length) (hfree : NoneAlive free) :
    Triple (TStore P E o ((dst, live ys ++ free) :: (src, live (ms ++ xs) ++ rest) :: Γ)) (BHeap.moveAll E dst src ys.length xs.length o)
      (fun o' h => ∃ ms' : List α, ms'.length = ms.length + xs.length ∧
        TStore P E o' ((dst, live (ys ++ xs) ++ free.drop xs.length) :: (src, live ms' ++ rest) :: Γ) h) := by
  induction xs generalizing ms ys free o with
  | nil => exact Triple.pure _ (fun h hh => ⟨ms, rfl, by rw [List.append_nil] at *; exact hh⟩)
  | cons x xs ih =>
    cases free with
    | nil => simp at hf
    | cons y free =>
      show Triple _ (E.moveOut o (src + ys.length * E.size) >>= fun v => _) _
      rw [TStore.perm (.swap _ _ _)]
      refine Triple.bind (triple_moveOut hE (live_get (by rw [← hl]; exact get_mid ..)) rfl) (fun v => Triple.and fun hv => ?_)
      rw [hv, ← hl, live_set (by simp), set_mid, hl]
      rw [TStore.perm (.swap _ _ _)]
      refine Triple.bind (triple_construct hE (y := y) (by rw [← live_length]; exact get_mid ..) (by rw [hfree y (by simp)]; rfl) _) (fun o' => ?_)
      have e1 : (live ys ++ y :: free).set ys.length (some ⟨x, true⟩) = live (ys ++ [x]) ++ free := by
        rw [live_append, List.append_assoc]
        conv => lhs; rw [← live_length, set_mid]
        rfl
      rw [e1]
      have e2 : ms ++ E.moved x :: xs = (ms ++ [E.moved x]) ++ xs := by rw [List.append_assoc]; rfl
      have := ih (o := o') (ms ++ [E.moved x]) (ys ++ [x]) free (by rw [List.length_append, List.length_append, hl]; rfl) (by simpa using hf)
        (fun z hz => hfree z (by simp [hz]))
      rw [← e2, List.length_append, List.length_singleton, List.append_assoc] at this
      refine this.post (fun o'' h ⟨ms', h1, h2⟩ => ⟨ms', ?_, h2⟩)
      rw [h1, List.length_append, List.length_singleton, List.length_cons]; omega

/-- what `percolateUp` does to the list of elements. Proof helper, not code. -/
def upList (comp : α → α → Bool) (v : α) (i : Nat) (zs : List α) : List α :=
  if h : i ≠ 0 then
    match zs[(i - 1) / 2]? with
    | some pv => if comp v pv = true then upList comp v ((i - 1) / 2) ((zs.set i pv).set ((i - 1) / 2) v) else zs
    | none => zs
  else zs
termination_by i

/-- `zs` in memory, except that place `i` (which should hold `v`) has been moved from -/
theorem BHeap.upLoop_spec (hE : E.Ok) {q : Nat} {rest : Slots α} {v : α} (i : Nat) (zs : List α) (junk : α) (hi : zs[i]? = some v) :
    Triple (TStore P E o ((q, live (zs.set i junk) ++ rest) :: Γ)) (BHeap.upLoop E comp q v i o)
      (fun r h => ∃ zs' : List α, zs'.Perm zs ∧ zs'[r.1]? = some v ∧ ((StrictWeak comp → UpInv comp zs i → HeapOrd comp zs') ∧ zs' = upList comp v i zs) ∧
        ∃ junk', TStore P E r.2 ((q, live (zs'.set r.1 junk') ++ rest) :: Γ) h) := by
  induction i using Nat.strongRecOn generalizing zs junk o with
  | _ i ih =>
    unfold BHeap.upLoop
    have hlt := (List.getElem?_eq_some_iff.1 hi).1
    by_cases h0 : i ≠ 0
    · rw [dif_pos h0]
      have hplt : (i - 1) / 2 < zs.length := by omega
      have hne : i ≠ (i - 1) / 2 := by omega
      have hp : zs[(i - 1) / 2]? = some zs[(i - 1) / 2] := List.getElem?_eq_getElem hplt
      have hp' : (zs.set i junk)[(i - 1) / 2]? = some zs[(i - 1) / 2] := by rw [List.getElem?_set_ne hne]; exact hp
      generalize hpv : zs[(i - 1) / 2] = pv at hp hp'
      refine Triple.bind (triple_read hE (live_get hp') rfl) (fun w => Triple.and fun hw => ?_)
      have hs := Eq.symm hw; dsimp only at hs; subst hs
      show Triple _ (if comp v pv = true then _ else _) _
      by_cases hc : comp v pv = true
      · rw [if_pos hc]
        refine Triple.bind (triple_moveOut hE (live_get hp') rfl) (fun r => Triple.and fun hr => ?_)
        replace hr : r.1 = pv := hr
        rw [hr, live_set (by rw [List.length_set]; exact hplt)]
        refine Triple.bind (triple_assign hE (live_get (v := junk) (by
          rw [List.getElem?_set_ne (Ne.symm hne), List.getElem?_set_self hlt])) rfl _) (fun o' => ?_)
        show Triple (TStore P E o' ((q, (live ((zs.set i junk).set ((i - 1) / 2) (E.moved pv)) ++ rest).set i (some ⟨pv, true⟩)) :: Γ)) _ _
        rw [live_set (by rw [List.length_set, List.length_set]; exact hlt)]
        have e : ((zs.set i junk).set ((i - 1) / 2) (E.moved pv)).set i pv = ((zs.set i pv).set ((i - 1) / 2) v).set ((i - 1) / 2) (E.moved pv) := by
          rw [List.set_comm _ _ (Ne.symm hne), List.set_set, List.set_set]
        rw [e]
        refine (ih ((i - 1) / 2) (by omega) ((zs.set i pv).set ((i - 1) / 2) v) _ (by
          rw [List.getElem?_set_self (by rw [List.length_set]; exact hplt)])).post (fun r h ⟨zs', h1, h2, h3, h4⟩ => ?_)
        refine ⟨zs', h1.trans (swap_perm hi hp), h2, ⟨fun hsw hup => h3.1 hsw (hup.step hsw h0 hi hp hc), ?_⟩, h4⟩
        rw [h3.2]
        conv => rhs; unfold upList
        rw [dif_pos h0, hp]
        exact (if_pos hc).symm
      · rw [if_neg hc]
        refine Triple.pure _ (fun h hh => ⟨zs, .refl _, hi, ⟨fun hsw hup => hup.stop (fun _ x y hx hy => ?_), ?_⟩, junk, hh⟩)
        · rw [hi] at hy
          rw [hp] at hx
          rw [← Option.some.inj hx, ← Option.some.inj hy]
          exact Bool.eq_false_iff.2 hc
        · unfold upList
          rw [dif_pos h0, hp]
          exact (if_neg hc).symm
    · rw [dif_neg h0]
      exact Triple.pure _ (fun h hh => ⟨zs, .refl _, hi, ⟨fun hsw hup => hup.stop (fun h => absurd h h0), by unfold upList; rw [dif_neg h0]⟩, junk, hh⟩)

theorem set_self {β : Type} {l : List β} {k : Nat} {v : β} (h : l[k]? = some v) : l.set k v = l := by
  obtain ⟨h1, rfl⟩ := List.getElem?_eq_some_iff.1 h
  exact List.set_getElem_self h1

theorem BHeap.percolateUp_spec (hE : E.Ok) {q : Nat} {rest : Slots α} {v : α} (i : Nat) (zs : List α) (hi : zs[i]? = some v) :
    Triple (TStore P E o ((q, live zs ++ rest) :: Γ)) (BHeap.percolateUp E comp q i o)
      (fun r h => ∃ zs' : List α, zs'.Perm zs ∧ zs'[r.1]? = some v ∧ ((StrictWeak comp → UpInv comp zs i → HeapOrd comp zs') ∧ zs' = upList comp v i zs) ∧
        TStore P E r.2 ((q, live zs' ++ rest) :: Γ) h) := by
  unfold BHeap.percolateUp
  refine Triple.bind (triple_read hE (live_get hi) rfl) (fun w => Triple.and fun hw => ?_)
  have hs := Eq.symm hw; dsimp only at hs; subst hs
  have := BHeap.upLoop_spec (P := P) (E := E) (o := o) (Γ := Γ) (comp := comp) hE (q := q) (rest := rest) i zs v hi
  rw [set_self hi] at this
  refine Triple.bind this (fun r => ?_)
  refine Triple.exists fun zs' => Triple.and fun h1 => Triple.and fun h2 => Triple.and fun h3 => Triple.exists fun junk => ?_
  have hlt := (List.getElem?_eq_some_iff.1 h2).1
  refine Triple.bind (triple_assign hE (live_get (v := junk) (by rw [List.getElem?_set_self hlt])) rfl _) (fun o' => ?_)
  refine Triple.pure _ (fun h hh => ⟨zs', h1, h2, h3, ?_⟩)
  replace hh : TStore P E o' ((q, (live (zs'.set r.1 junk) ++ rest).set r.1 (some ⟨v, true⟩)) :: Γ) h := hh
  rw [live_set (by rw [List.length_set]; exact hlt), List.set_set, set_self h2] at hh
  exact hh

/-- what `better` computes. Proof helper, not code. -/
def bestOf (comp : α → α → Bool) (zs : List α) (c child : Nat) : Nat :=
  match zs[c]?, zs[child]? with
  | some x, some y => if comp x y then c else child
  | _, _ => child

theorem BHeap.better_spec (hE : E.Ok) {q : Nat} {rest : Slots α} (zs : List α) (c child : Nat) (hch : child < zs.length) :
    Triple (TStore P E o ((q, live zs ++ rest) :: Γ)) (BHeap.better E comp q zs.length o c child)
      (fun r h => r = bestOf comp zs c child ∧ TStore P E o ((q, live zs ++ rest) :: Γ) h) := by
  unfold BHeap.better bestOf
  have hy : zs[child]? = some zs[child] := List.getElem?_eq_getElem hch
  split
  · rename_i hc
    have hx : zs[c]? = some zs[c] := List.getElem?_eq_getElem hc
    refine Triple.bind (triple_read hE (live_get hx) rfl) (fun x => Triple.and fun hxe => ?_)
    refine Triple.bind (triple_read hE (live_get hy) rfl) (fun y => Triple.and fun hye => ?_)
    rw [hx, hy, hxe, hye]
    exact Triple.pure _ (fun h hh => ⟨rfl, hh⟩)
  · rename_i hc
    rw [List.getElem?_eq_none (by omega)]
    exact Triple.pure _ (fun h hh => ⟨rfl, hh⟩)

theorem bestOf_cases (comp : α → α → Bool) {zs : List α} {c child : Nat} (hch : child < zs.length) :
    (bestOf comp zs c child = child ∧ Le comp zs child c) ∨
    (c < zs.length ∧ bestOf comp zs c child = c ∧ ∀ x y, zs[c]? = some x → zs[child]? = some y → comp x y = true) := by
  unfold bestOf
  have hy : zs[child]? = some zs[child] := List.getElem?_eq_getElem hch
  rw [hy]
  cases hx : zs[c]? with
  | none => left; exact ⟨rfl, fun x y _ h => by rw [hx] at h; cases h⟩
  | some x =>
    dsimp only
    by_cases hcm : comp x zs[child] = true
    · right
      rw [if_pos hcm]
      refine ⟨(List.getElem?_eq_some_iff.1 hx).1, rfl, fun x' y' h1 h2 => ?_⟩
      rw [← Option.some.inj h1, ← Option.some.inj h2]; exact hcm
    · left
      rw [if_neg hcm]
      refine ⟨rfl, fun x' y' h1 h2 => ?_⟩
      rw [hy] at h1
      rw [hx] at h2
      rw [← Option.some.inj h1, ← Option.some.inj h2]; exact Bool.eq_false_iff.2 hcm

/-- the child chosen by one round of `percolateDown` -/
theorem best_child (comp : α → α → Bool) {zs : List α} {p c : Nat} (hp : p < zs.length)
    (hc : c = bestOf comp zs (p * 2 + 2) (bestOf comp zs (p * 2 + 1) p)) :
    (c = p ∧ ∀ j, j ≠ 0 → (j - 1) / 2 = p → Le comp zs p j) ∨
    (c < zs.length ∧ c ≠ 0 ∧ (c - 1) / 2 = p ∧ p < c ∧ (StrictWeak comp → (∀ x y, zs[c]? = some x → zs[p]? = some y → comp x y = true) ∧
      ∀ j, j ≠ 0 → (j - 1) / 2 = p → Le comp zs c j)) := by
  have hj : ∀ j, j ≠ 0 → (j - 1) / 2 = p → j = p * 2 + 1 ∨ j = p * 2 + 2 := fun j h1 h2 => by omega
  rcases bestOf_cases comp (c := p * 2 + 1) hp with ⟨h1, h2⟩ | ⟨h1, h2, h3⟩
  · rw [h1] at hc
    rcases bestOf_cases comp (c := p * 2 + 2) hp with ⟨k1, k2⟩ | ⟨k1, k2, k3⟩
    · left
      refine ⟨by rw [hc, k1], fun j a b => ?_⟩
      rcases hj j a b with rfl | rfl
      · exact h2
      · exact k2
    · right
      rw [k2] at hc
      subst hc
      refine ⟨k1, by omega, by omega, by omega, fun hsw => ⟨k3, fun j a b => ?_⟩⟩
      rcases hj j a b with rfl | rfl
      · intro x y hx hy
        have hpv : zs[p]? = some zs[p] := List.getElem?_eq_getElem hp
        exact hsw.le_trans (hsw.asymm (k3 _ _ hx hpv)) (h2 _ _ hpv hy)
      · intro x y hx hy
        rw [hx] at hy
        rw [Option.some.inj hy]; exact hsw.irrefl _
  · rw [h2] at hc
    rcases bestOf_cases comp (c := p * 2 + 2) h1 with ⟨k1, k2⟩ | ⟨k1, k2, k3⟩
    · right
      rw [k1] at hc
      subst hc
      refine ⟨h1, by omega, by omega, by omega, fun hsw => ⟨h3, fun j a b => ?_⟩⟩
      rcases hj j a b with rfl | rfl
      · intro x y hx hy
        rw [hx] at hy
        rw [Option.some.inj hy]; exact hsw.irrefl _
      · exact k2
    · right
      rw [k2] at hc
      subst hc
      have hlv : zs[p * 2 + 1]? = some zs[p * 2 + 1] := List.getElem?_eq_getElem h1
      refine ⟨k1, by omega, by omega, by omega, fun hsw => ⟨fun x y hx hy => hsw.trans _ _ _ (k3 _ _ hx hlv) (h3 _ _ hlv hy), fun j a b => ?_⟩⟩
      rcases hj j a b with rfl | rfl
      · intro x y hx hy
        exact hsw.asymm (k3 _ _ hx hy)
      · intro x y hx hy
        rw [hx] at hy
        rw [Option.some.inj hy]; exact hsw.irrefl _

/-- what `percolateDown` does to the list of elements. Proof helper, not code. -/
def downList (comp : α → α → Bool) (fuel p : Nat) (zs : List α) : List α :=
  match fuel with
  | 0 => zs
  | fuel + 1 =>
    let c := bestOf comp zs (p * 2 + 2) (bestOf comp zs (p * 2 + 1) p)
    if c = p then zs else
      match zs[p]?, zs[c]? with
      | some v, some cv => downList comp fuel c ((zs.set c v).set p cv)
      | _, _ => zs

theorem BHeap.downLoop_spec (hE : E.Ok) {q : Nat} {rest : Slots α} {v : α} (fuel p : Nat) (zs : List α) (hp : zs[p]? = some v) (hf : zs.length < fuel + p) :
    Triple (TStore P E o ((q, live zs ++ rest) :: Γ)) (BHeap.downLoop E comp q zs.length fuel p o)
      (fun r h => ∃ zs' : List α, zs'.Perm zs ∧ zs'[r.1]? = some v ∧ ((StrictWeak comp → DownInv comp zs p → HeapOrd comp zs') ∧ zs' = downList comp fuel p zs) ∧
        TStore P E r.2 ((q, live zs' ++ rest) :: Γ) h) := by
  induction fuel generalizing p zs o with
  | zero =>
    have := (List.getElem?_eq_some_iff.1 hp).1
    omega
  | succ fuel ih =>
    have hlt := (List.getElem?_eq_some_iff.1 hp).1
    unfold BHeap.downLoop
    rw [if_pos hlt]
    refine Triple.bind (BHeap.better_spec hE zs (p * 2 + 1) p hlt) (fun c1 => Triple.and fun h1 => ?_)
    have hc1 : c1 < zs.length := by
      rcases bestOf_cases comp (c := p * 2 + 1) hlt with ⟨h2, _⟩ | ⟨h2, h3, _⟩
      · rw [h1, h2]; exact hlt
      · rw [h1, h3]; exact h2
    refine Triple.bind (BHeap.better_spec hE zs (p * 2 + 2) c1 hc1) (fun c => Triple.and fun h2 => ?_)
    rw [h1] at h2
    rcases best_child comp hlt h2 with ⟨h3, h4⟩ | ⟨h3, h4, h5, h6, h7⟩
    · rw [if_pos h3]
      exact Triple.pure _ (fun h hh => ⟨zs, .refl _, hp, ⟨fun _ hd => hd.stop h4, by rw [downList, ← h2]; exact (if_pos h3).symm⟩, hh⟩)
    · rw [if_neg (by omega)]
      have hc : zs[c]? = some zs[c] := List.getElem?_eq_getElem h3
      generalize zs[c] = cv at hc
      refine Triple.bind (triple_moveOut hE (live_get hc) rfl) (fun t => Triple.and fun ht => ?_)
      replace ht : t.1 = cv := ht
      rw [live_set h3]
      have hp1 : (zs.set c (E.moved cv))[p]? = some v := by rw [List.getElem?_set_ne (by omega)]; exact hp
      refine Triple.bind (triple_moveOut hE (live_get hp1) rfl) (fun r => Triple.and fun hr => ?_)
      replace hr : r.1 = v := hr
      rw [live_set (by rw [List.length_set]; exact hlt), hr, ht]
      refine Triple.bind (triple_assign hE (live_get (v := E.moved cv) (by
        rw [List.getElem?_set_ne (by omega), List.getElem?_set_self h3])) rfl _) (fun o1 => ?_)
      show Triple (TStore P E o1 ((q, (live ((zs.set c (E.moved cv)).set p (E.moved v)) ++ rest).set c (some ⟨v, true⟩)) :: Γ)) _ _
      rw [live_set (by rw [List.length_set, List.length_set]; exact h3)]
      refine Triple.bind (triple_assign hE (live_get (v := E.moved v) (by
        rw [List.getElem?_set_ne (by omega), List.getElem?_set_self (by rw [List.length_set]; exact hlt)])) rfl _) (fun o2 => ?_)
      show Triple (TStore P E o2 ((q, (live (((zs.set c (E.moved cv)).set p (E.moved v)).set c v) ++ rest).set p (some ⟨cv, true⟩)) :: Γ)) _ _
      rw [live_set (by rw [List.length_set, List.length_set, List.length_set]; exact hlt)]
      have e : (((zs.set c (E.moved cv)).set p (E.moved v)).set c v).set p cv = (zs.set c v).set p cv := by
        rw [List.set_comm (E.moved v) v (by omega), List.set_set, List.set_set]
      rw [e]
      have := ih (o := o2) c ((zs.set c v).set p cv) (by
        rw [List.getElem?_set_ne (by omega), List.getElem?_set_self h3]) (by rw [List.length_set, List.length_set]; omega)
      rw [List.length_set, List.length_set] at this
      refine this.post (fun r h ⟨zs', k1, k2, k3, k4⟩ => ⟨zs', k1.trans (swap_perm hc hp), k2, ⟨fun hsw hd => ?_, ?_⟩, k4⟩)
      rotate_left
      · rw [k3.2]
        conv => rhs; rw [downList]
        rw [← h2, if_neg (by omega), hp, hc]
      exact k3.1 hsw (hd.step hsw h4 h5 hp hc ((h7 hsw).1 _ _ hc hp) (h7 hsw).2)

theorem BHeap.percolateDown_spec (hE : E.Ok) {q : Nat} {rest : Slots α} (zs : List α) (h0 : 0 < zs.length) :
    Triple (TStore P E o ((q, live zs ++ rest) :: Γ)) (BHeap.percolateDown E comp q zs.length 0 o)
      (fun o' h => ∃ zs' : List α, zs'.Perm zs ∧ ((StrictWeak comp → DownInv comp zs 0 → HeapOrd comp zs') ∧ zs' = downList comp (zs.length + 1) 0 zs) ∧
        TStore P E o' ((q, live zs' ++ rest) :: Γ) h) := by
  unfold BHeap.percolateDown
  have hi : zs[0]? = some zs[0] := List.getElem?_eq_getElem h0
  generalize zs[0] = v at hi
  refine Triple.bind (triple_read hE (live_get hi) rfl) (fun w => Triple.and fun hw => ?_)
  have hs := Eq.symm hw; dsimp only at hs; subst hs
  refine Triple.bind (BHeap.downLoop_spec hE (zs.length + 1) 0 zs hi (by omega)) (fun r => ?_)
  refine Triple.exists fun zs' => Triple.and fun h1 => Triple.and fun h2 => Triple.and fun h3 => ?_
  have hlt := (List.getElem?_eq_some_iff.1 h2).1
  refine (triple_assign hE (live_get h2) rfl _).post (fun o' h hh => ⟨zs', h1, h3, ?_⟩)
  replace hh : TStore P E o' ((q, (live zs' ++ rest).set r.1 (some ⟨v, true⟩)) :: Γ) h := hh
  rw [live_set hlt, set_self h2] at hh
  exact hh

theorem BHeap.find_spec (hE : E.Ok) {q : Nat} {rest : Slots α} (eq : α → Bool) (xs pre : List α) :
    Triple (TStore P E o ((q, live (pre ++ xs) ++ rest) :: Γ)) (BHeap.find E eq o q pre.length xs.length)
      (fun k h => k = pre.length + xs.findIdx eq ∧ TStore P E o ((q, live (pre ++ xs) ++ rest) :: Γ) h) := by
  induction xs generalizing pre with
  | nil => exact Triple.pure _ (fun h hh => ⟨rfl, hh⟩)
  | cons x xs ih =>
    refine Triple.bind (triple_read hE (live_get (get_mid ..)) rfl) (fun w => Triple.and fun hw => ?_)
    have hs := Eq.symm hw; dsimp only at hs; subst hs
    show Triple _ (if eq x = true then _ else _) _
    by_cases hx : eq x = true
    · rw [if_pos hx]
      refine Triple.pure _ (fun h hh => ⟨?_, hh⟩)
      rw [List.findIdx_cons, hx]; rfl
    · rw [if_neg hx]
      have := ih (pre ++ [x])
      rw [List.append_assoc, List.length_append, List.length_singleton] at this
      refine this.post (fun k h ⟨h1, h2⟩ => ⟨?_, h2⟩)
      rw [h1, List.findIdx_cons, Bool.eq_false_iff.2 hx]
      simp only [cond_false]; omega

end
end KTL

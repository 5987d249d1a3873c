import Verif.Props.BinaryHeap

/- Two allocator objects and the blocks their clients hold, as one memory for typed blocks (proof machinery). -/
namespace KTL
variable {α : Type}

/-- address and size -/
def ext (y : Nat × List UInt8) : Nat × Nat := (y.1, y.2.length)

/-- The blocks `R` are those of two allocator objects; `L` are the addresses and sizes of those of the first. -/
def Two {A B : Allocator} {fA fB : Nat → Prop} (hA : Sound A fA) (b : Nat) (s : A.St) (hB : Sound B fB) (b' : Nat) (t : B.St)
    (L : List (Nat × Nat)) (R : List (Nat × List UInt8)) : HProp :=
  fun x => ∃ R1 R2 : List (Nat × List UInt8), R.Perm (R1 ++ R2) ∧ (R1.map ext).Perm L ∧ (Pool hA b s R1 ∗ Pool hB b' t R2) x

section
variable {A B : Allocator} {fA fB : Nat → Prop} {hA : Sound A fA} {hB : Sound B fB} {b b' : Nat} {s : A.St} {t : B.St} {L : List (Nat × Nat)}

/-- a block is one of the first or one of the second allocator -/
theorem two_cases {y : Nat × List UInt8} {R R1 R2 : List (Nat × List UInt8)} (h : (y :: R).Perm (R1 ++ R2)) :
    (∃ R1', R1.Perm (y :: R1') ∧ R.Perm (R1' ++ R2)) ∨ (∃ R2', R2.Perm (y :: R2') ∧ R.Perm (R1 ++ R2')) := by
  have hm : y ∈ R1 ++ R2 := h.mem_iff.1 (by simp)
  rcases List.mem_append.1 hm with hm | hm
  · obtain ⟨i, hi⟩ := List.getElem?_of_mem hm
    have hp := perm_eraseIdx hi
    exact .inl ⟨_, hp, List.Perm.cons_inv (a := y) (h.trans (hp.append_right R2))⟩
  · obtain ⟨i, hi⟩ := List.getElem?_of_mem hm
    have hp := perm_eraseIdx hi
    refine .inr ⟨_, hp, List.Perm.cons_inv (a := y) (h.trans ((hp.append_left R1).trans ?_))⟩
    exact List.perm_middle

theorem Two.mono {R R' : List (Nat × List UInt8)} (h : R.Perm R') (x : Heap) (hx : Two hA b s hB b' t L R x) : Two hA b s hB b' t L R' x := by
  obtain ⟨R1, R2, h1, h2, h3⟩ := hx
  exact ⟨R1, R2, h.symm.trans h1, h2, h3⟩

theorem Two.exists_triple {β : Type} {R : List (Nat × List UInt8)} {c : M β} {Q : β → HProp}
    (h : ∀ R1 R2, R.Perm (R1 ++ R2) → (R1.map ext).Perm L → Triple (Pool hA b s R1 ∗ Pool hB b' t R2) c Q) : Triple (Two hA b s hB b' t L R) c Q :=
  Triple.exists fun R1 => Triple.exists fun R2 => Triple.and fun h1 => Triple.and fun h2 => h R1 R2 h1 h2

instance : Store (Two hA b s hB b' t L) where
  perm h := funext fun x => propext ⟨Two.mono h x, Two.mono h.symm x⟩
  read {p off n bs R'} hn := by
    refine Two.exists_triple fun R1 R2 h1 h2 => ?_
    rcases two_cases h1 with ⟨R1', k1, k2⟩ | ⟨R2', k1, k2⟩
    · refine ((triple_poolRead (hA := hA) (b := b) (s := s) p off n bs R1 R1' k1 hn).frame (Pool hB b' t R2)).post (fun r x hx => ?_)
      rw [star_and] at hx
      exact ⟨hx.1, R1, R2, h1, h2, hx.2⟩
    · have := (triple_poolRead (hA := hB) (b := b') (s := t) p off n bs R2 R2' k1 hn).frame (Pool hA b s R1)
      rw [star_comm] at this
      refine this.post (fun r x hx => ?_)
      rw [star_and] at hx
      refine ⟨hx.1, R1, R2, h1, h2, ?_⟩
      rw [star_comm]; exact hx.2
  write {p off bs ds R'} hn := by
    refine Two.exists_triple fun R1 R2 h1 h2 => ?_
    rcases two_cases h1 with ⟨R1', k1, k2⟩ | ⟨R2', k1, k2⟩
    · refine ((triple_poolWrite (hA := hA) (b := b) (s := s) p off bs ds R1 R1' k1 hn).frame (Pool hB b' t R2)).post (fun r x hx => ?_)
      refine ⟨_, R2, k2.cons _, ?_, hx⟩
      rw [List.map_cons, show ext (p, splice bs off ds) = ext (p, bs) from by unfold ext; rw [splice_length hn]]
      exact (k1.map ext).symm.trans h2
    · have := (triple_poolWrite (hA := hB) (b := b') (s := t) p off bs ds R2 R2' k1 hn).frame (Pool hA b s R1)
      rw [star_comm] at this
      refine this.post (fun r x hx => ?_)
      refine ⟨R1, _, (k2.cons _).trans List.perm_middle.symm, h2, ?_⟩
      rw [star_comm]; exact hx

theorem Pool.isSome {R : List (Nat × List UInt8)} {p : Nat} {bs : List UInt8} {h : Heap} (hp : Pool hA b s R h) (hm : (p, bs) ∈ R)
    (y : Nat) (h1 : p ≤ y) (h2 : y < p + bs.length) : (h.b y).isSome = true := by
  obtain ⟨g1, g2, hd, rfl, _, h4⟩ := hp
  have e := blocksV_mem h4 hm (y - p) (by omega)
  rw [show p + (y - p) = y by omega] at e
  rcases hd.1 y with e' | e'
  · simp [e', e]
  · rw [e] at e'; cases e'

/-- a block of the first and a block of the second allocator do not overlap -/
theorem pools_apart {R1 R2 : List (Nat × List UInt8)} {p q : Nat} {bs cs : List UInt8} {x : Heap} (h : (Pool hA b s R1 ∗ Pool hB b' t R2) x)
    (h1 : (p, bs) ∈ R1) (h2 : (q, cs) ∈ R2) : p + bs.length ≤ q ∨ q + cs.length ≤ p ∨ bs.length = 0 ∨ cs.length = 0 := by
  obtain ⟨g1, g2, hd, rfl, hp, hq⟩ := h
  have key : ∀ y, ¬ ((p ≤ y ∧ y < p + bs.length) ∧ (q ≤ y ∧ y < q + cs.length)) := fun y ⟨hy1, hy2⟩ =>
    disj_isSome hd (x := y) (Pool.isSome hp h1 y hy1.1 hy1.2) (Pool.isSome hq h2 y hy2.1 hy2.2)
  have k1 := key p
  have k2 := key q
  omega

variable {E : Elt α} {o : Objs α} {Γ : List (Nat × Slots α)}

/-- a new block of the second allocator -/
theorem triple_twoGrab (hE : E.Ok) (n : Nat) (hf : fB (E.size * n)) (hn : E.size * n < W64) :
    Triple (TStore (Two hA b s hB b' t L) E o Γ) (grab E.size B t n) (fun r x =>
      (r.1 = 0 ∧ n = 0 ∧ TStore (Two hA b s hB b' r.2 L) E o Γ x) ∨
      (r.1 ≠ 0 ∧ TStore (Two hA b s hB b' r.2 L) E o ((r.1, List.replicate n none) :: Γ) x)) := by
  refine Triple.exists fun R => Triple.and fun hm => Triple.and fun ha => Triple.and fun hkn => ?_
  refine Two.exists_triple fun R1 R2 k1 k2 => ?_
  have hg := (triple_grab (hA := hB) (b := b') (s := t) E.size n R2 hf hn).frame (Pool hA b s R1)
  rw [star_comm] at hg
  refine hg.post (fun r x hx => ?_)
  obtain ⟨x1, x2, hd, rfl, h | ⟨h1, bs, h2, h3⟩, hpA⟩ := hx
  · exact .inl ⟨h.1, h.2.1, R, hm, ha, hkn, R1, R2, k1, k2, by rw [star_comm]; exact ⟨x1, x2, hd, rfl, h.2.2, hpA⟩⟩
  · have hst : (Pool hA b s R1 ∗ Pool hB b' r.2 ((r.1, bs) :: R2)) (x1.add x2) := by rw [star_comm]; exact ⟨x1, x2, hd, rfl, h3, hpA⟩
    refine .inr ⟨h1.1, (r.1, bs) :: R, .cons ⟨?_, fun k x hx => ?_⟩ hm, List.pairwise_cons.2 ⟨?_, ha⟩, fun p y => ?_, R1, _,
      (k1.cons _).trans List.perm_middle.symm, k2, hst⟩
    · rw [h2, List.length_replicate, Nat.mul_comm]
    · rw [List.getElem?_replicate] at hx
      split at hx <;> cases hx
    · rintro ⟨q', sl'⟩ hv
      show r.1 + (List.replicate n none).length * E.size ≤ q' ∨ q' + sl'.length * E.size ≤ r.1 ∨ (List.replicate n none).length = 0 ∨ sl'.length = 0
      rw [List.length_replicate]
      obtain ⟨bs', j1, j2⟩ := hm.mem hv
      have hap : q' + bs'.length ≤ r.1 ∨ r.1 + bs.length ≤ q' ∨ bs'.length = 0 ∨ bs.length = 0 := by
        rcases List.mem_append.1 (k1.mem_iff.1 j1) with j | j
        · exact pools_apart hst j (by simp)
        · obtain ⟨i, hi⟩ := List.getElem?_of_mem j
          have := Pool.disjoint ((perm_eraseIdx hi).cons (r.1, bs)) h3
          omega
      have hz : n * E.size = 0 → n = 0 := fun h => (Nat.mul_eq_zero.1 h).resolve_right (by have := hE.pos; omega)
      have hz' : sl'.length * E.size = 0 → sl'.length = 0 := fun h => (Nat.mul_eq_zero.1 h).resolve_right (by have := hE.pos; omega)
      rw [h2, j2.len, Nat.mul_comm E.size n] at hap
      rcases hap with h | h | h | h
      · exact .inr (.inl h)
      · exact .inl h
      · exact .inr (.inr (.inr (hz' h)))
      · exact .inr (.inr (.inl (hz h)))
    · rw [hkn p y]
      constructor
      · rintro ⟨q, sl, k, k1, k2⟩; exact ⟨q, sl, k, by simp [k1], k2⟩
      · rintro ⟨q, sl, k, k1, k2, k3⟩
        rcases List.mem_cons.1 k1 with k1 | k1
        · cases k1
          rw [List.getElem?_replicate] at k2
          split at k2 <;> cases k2
        · exact ⟨q, sl, k, k1, k2, k3⟩

/-- a heap is copied to the second allocator -/
theorem BHeap.crossCopy_spec (hE : E.Ok) {g : HGhost α} (hg : g.Ok) (hf : fB (E.size * g.xs.length)) (hn : E.size * g.xs.length < W64) :
    Triple (TStore (Two hA b s hB b' t L) E o (g.own ++ Γ)) (g.h.copy E B t o) (fun r x => ∃ g' : HGhost α, g'.h = r.2.2 ∧ g'.Ok ∧ g'.xs = g.xs ∧
      r.2.2.cap = g.xs.length ∧ TStore (Two hA b s hB b' r.1 L) E r.2.1 (g'.own ++ (g.own ++ Γ)) x) := by
  unfold BHeap.copy
  rw [hg.size]
  refine Triple.bind (triple_twoGrab hE g.xs.length hf hn) (fun r => ?_)
  refine Triple.or ?_ ?_
  · refine Triple.and fun h1 => Triple.and fun h2 => ?_
    have hx := List.length_eq_zero_iff.1 h2
    refine Triple.bind (R := fun o' => TStore (Two hA b s hB b' r.2 L) E o' (g.own ++ Γ)) ?_ (fun o' => Triple.pure _ (fun x hp => ?_))
    · rw [h2]; exact Triple.pure _ (fun x hp => hp)
    · refine ⟨⟨⟨g.xs.length, g.xs.length, r.1⟩, g.xs, []⟩, rfl, ⟨rfl, rfl, fun _ => h2, fun _ h => by simp at h⟩, rfl, rfl, ?_⟩
      rw [HGhost.own_mk_null h1]; exact hp
  · refine Triple.and fun h1 => ?_
    refine Triple.bind (R := fun o' => TStore (Two hA b s hB b' r.2 L) E o' ((r.1, live g.xs ++ []) :: (g.own ++ Γ))) ?_ (fun o' => Triple.pure _ (fun x hp => ?_))
    · by_cases h0 : g.h.beg = 0
      · rw [(hg.nil h0).1]
        exact Triple.pure _ (fun x hp => hp)
      · rw [HGhost.own_pos h0]
        have := BHeap.copyAll_spec (P := Two hA b s hB b' r.2 L) (o := o) (Γ := Γ) hE (dst := r.1) (src := g.h.beg) g.xs [] [] (List.replicate g.xs.length none) g.rest rfl
          (by simp) (NoneAlive.replicate _)
        rw [List.drop_of_length_le (by simp)] at this
        exact this
    · refine ⟨⟨⟨g.xs.length, g.xs.length, r.1⟩, g.xs, []⟩, rfl, ⟨rfl, rfl, fun h => absurd h h1, fun _ h => by simp at h⟩, rfl, rfl, ?_⟩
      rw [HGhost.own_mk h1]; exact hp

/-- a block of the first allocator with trivial elements is given back -/
theorem triple_twoDealloc (hE : E.Ok) {q : Nat} {sl : Slots α} (ht : E.trivial = true) (hn : E.size * sl.length < W64)
    (hL : (q, sl.length * E.size) ∈ L) :
    Triple (TStore (Two hA b s hB b' t L) E o ((q, sl) :: Γ)) (E.dealloc A s o q sl.length)
      (fun r => TStore (Two hA b r.1 hB b' t (L.erase (q, sl.length * E.size))) E r.2 Γ) := by
  refine Triple.exists fun R => Triple.and fun hm => Triple.and fun ha => Triple.and fun hkn => ?_
  cases hm with
  | @cons _ _ bs _ R' h1 h2 =>
    refine Two.exists_triple fun R1 R2 k1 k2 => ?_
    unfold Elt.dealloc
    rw [if_neg (by rw [ht]; simp)]
    refine Triple.have (p := ∃ R1', R1.Perm ((q, bs) :: R1') ∧ ∃ R2', R'.Perm (R1' ++ R2') ∧ (R2' = R2)) (fun x hx => ?_) (fun hR => ?_)
    · rcases two_cases k1 with ⟨R1', j1, j2⟩ | ⟨R2', j1, j2⟩
      · exact ⟨R1', j1, R2, j2, rfl⟩
      · have hmem : (q, sl.length * E.size) ∈ R1.map ext := k2.mem_iff.2 hL
        obtain ⟨⟨q', bs'⟩, m1, m2⟩ := List.mem_map.1 hmem
        have e1 : q' = q := congrArg Prod.fst m2
        have e2 : bs'.length = sl.length * E.size := congrArg Prod.snd m2
        subst e1
        have hap := pools_apart hx m1 (q := q') (cs := bs) (j1.mem_iff.2 (by simp))
        have e3 := h1.len
        have hb : bs = bs' := by
          have : bs.length = 0 := by omega
          have : bs'.length = 0 := by omega
          rw [List.length_eq_zero_iff.1 ‹bs.length = 0›, List.length_eq_zero_iff.1 ‹bs'.length = 0›]
        subst hb
        obtain ⟨i, hi⟩ := List.getElem?_of_mem m1
        have hp := perm_eraseIdx hi
        refine ⟨_, hp, R2, ?_, rfl⟩
        exact List.Perm.cons_inv (a := (q', bs)) (k1.trans (hp.append_right R2))
    · obtain ⟨R1', j1, R2', j2, rfl⟩ := hR
      have hu := (triple_ungrab (hA := hA) (b := b) (s := s) E.size sl.length q bs R1 R1' j1 (by rw [h1.len, Nat.mul_comm]) hn).frame (Pool hB b' t R2')
      refine Triple.bind hu (fun s' => ?_)
      refine Triple.pure _ (fun x hx => ⟨R', h2, (List.pairwise_cons.1 ha).2, fun p y => ?_, R1', R2', j2, ?_, hx⟩)
      · show Objs.forget o q (sl.length * E.size) p = some y ↔ _
        unfold Objs.forget
        split
        · rename_i hp
          constructor
          · intro h; cases h
          · rintro ⟨q', sl', k', k1, k2, k3⟩
            have := (List.pairwise_cons.1 ha).1 _ k1
            replace this : q + sl.length * E.size ≤ q' ∨ q' + sl'.length * E.size ≤ q ∨ sl.length = 0 ∨ sl'.length = 0 := this
            have hk' := (List.getElem?_eq_some_iff.1 k2).1
            have h2 : (k' + 1) * E.size ≤ sl'.length * E.size := Nat.mul_le_mul_right _ hk'
            rw [Nat.succ_mul] at h2
            have := hE.pos
            have h0 : sl.length ≠ 0 := fun h0 => by rw [h0] at hp; omega
            omega
        · rename_i hp
          rw [hkn p y]
          constructor
          · rintro ⟨q', sl', k', k1, k2, k3⟩
            rcases List.mem_cons.1 k1 with k1 | k1
            · cases k1
              have hk' := (List.getElem?_eq_some_iff.1 k2).1
              have h2 : (k' + 1) * E.size ≤ sl.length * E.size := Nat.mul_le_mul_right _ hk'
              rw [Nat.succ_mul] at h2
              have := hE.pos
              omega
            · exact ⟨q', sl', k', k1, k2, k3⟩
          · rintro ⟨q', sl', k', k1, k2, k3⟩; exact ⟨q', sl', k', by simp [k1], k2, k3⟩
      · have e : (q, sl.length * E.size) = ext (q, bs) := by unfold ext; rw [h1.len]
        have := (j1.map ext).symm.trans k2
        rw [List.map_cons, ← e] at this
        have := this.erase (q, sl.length * E.size)
        rwa [List.erase_cons_head] at this

/-- the elements are in memory -/
theorem Two.holds (hE : E.Ok) {h hf : Heap} {w : World} (hp : TStore (Two hA b s hB b' t L) E o Γ h) (he : w.heap = h.add hf) {q : Nat} {xs : List α} {rest : Slots α}
    (hm : (q, live xs ++ rest) ∈ Γ) : Holds E o w q xs := by
  intro k x hk
  obtain ⟨R, h1, _, h3, R1, R2, r1, r2, hst⟩ := hp
  have hl := live_get (rest := rest) hk
  refine ⟨(h3 _ _).2 ⟨q, _, k, hm, hl, rfl⟩, fun j hj => ?_⟩
  obtain ⟨bs, hb1, hb2⟩ := h1.mem hm
  have hlt := (List.getElem?_eq_some_iff.1 hl).1
  have hle : (k + 1) * E.size ≤ (live xs ++ rest).length * E.size := Nat.mul_le_mul_right _ hlt
  rw [Nat.succ_mul, ← hb2.len] at hle
  have hdat := hb2.data _ _ hl
  have hget : (E.enc x)[j]? = bs[k * E.size + j]? := by
    replace hdat : List.take E.size (List.drop (k * E.size) bs) = E.enc x := hdat
    rw [← hdat, List.getElem?_take_of_lt hj, List.getElem?_drop]
  rw [hget, List.getElem?_eq_getElem (by omega), he, Nat.add_assoc]
  obtain ⟨x1, x2, hd, rfl, hp1, hp2⟩ := hst
  have fin : ∀ {C : Allocator} {fC : Nat → Prop} {hC : Sound C fC} {c : Nat} {u : C.St} {R : List (Nat × List UInt8)} {y : Heap},
      Pool hC c u R y → (q, bs) ∈ R → y.b (q + (k * E.size + j)) = some (bs[k * E.size + j]'(by omega)) := fun {C fC hC c u R y} hpp hmm => by
    obtain ⟨y1, y2, hd', rfl, _, hbl⟩ := hpp
    have e := blocksV_mem hbl hmm (k * E.size + j) (by omega)
    rcases hd'.1 (q + (k * E.size + j)) with e' | e'
    · simp [e', e]
    · rw [e] at e'; cases e'
  rcases List.mem_append.1 (r1.mem_iff.1 hb1) with m | m
  · have e := fin hp1 m
    simp [Heap.add, e]
  · have e := fin hp2 m
    rcases hd.1 (q + (k * E.size + j)) with e' | e'
    · simp [Heap.add, e', e]
    · rw [e] at e'; cases e'
end
end KTL

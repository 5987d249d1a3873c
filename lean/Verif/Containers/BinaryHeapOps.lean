import Verif.Containers.BinaryHeapSpec

/- The member functions of `Containers/BinaryHeap.lean` as operations on a heap's list of elements (proof machinery). -/
namespace KTL
variable {α : Type}

/-- a heap together with the elements it holds and the rest of its storage. Proof helper, not code. -/
structure HGhost (α : Type) where
  h : BHeap
  xs : List α
  rest : Slots α

/-- Proof helper, not code. -/
def HGhost.own (g : HGhost α) : List (Nat × Slots α) := if g.h.beg = 0 then [] else [(g.h.beg, live g.xs ++ g.rest)]

/-- Proof helper, not code. -/
structure HGhost.Ok (g : HGhost α) : Prop where
  size : g.h.size = g.xs.length
  cap : g.h.cap = g.xs.length + g.rest.length
  null : g.h.beg = 0 → g.h.cap = 0
  dead : NoneAlive g.rest

theorem HGhost.own_pos {g : HGhost α} (h : g.h.beg ≠ 0) : g.own = [(g.h.beg, live g.xs ++ g.rest)] := if_neg h
theorem HGhost.own_null {g : HGhost α} (h : g.h.beg = 0) : g.own = [] := if_pos h

theorem HGhost.own_mk {n c q : Nat} {xs : List α} {rest : Slots α} (h : q ≠ 0) : HGhost.own ⟨⟨n, c, q⟩, xs, rest⟩ = [(q, live xs ++ rest)] := if_neg h
theorem HGhost.own_mk_null {n c q : Nat} {xs : List α} {rest : Slots α} (h : q = 0) : HGhost.own ⟨⟨n, c, q⟩, xs, rest⟩ = [] := if_pos h

theorem HGhost.Ok.nil {g : HGhost α} (h : g.Ok) (h0 : g.h.beg = 0) : g.xs = [] ∧ g.rest = [] := by
  have h1 := h.null h0
  have h2 := h.cap
  exact ⟨List.length_eq_zero_iff.1 (by omega), List.length_eq_zero_iff.1 (by omega)⟩

theorem HGhost.Ok.pos {g : HGhost α} (h : g.Ok) (hx : 0 < g.xs.length) : g.h.beg ≠ 0 := fun h0 => by
  rw [(h.nil h0).1] at hx; simp at hx

/-- Proof helper, not code. -/
def HGhost.empty : HGhost α := ⟨.null, [], []⟩
theorem HGhost.empty_ok : (HGhost.empty : HGhost α).Ok := ⟨rfl, rfl, fun _ => rfl, fun _ h => by simp [HGhost.empty] at h⟩

theorem NoneAlive.append {a b : Slots α} (ha : NoneAlive a) (hb : NoneAlive b) : NoneAlive (a ++ b) := fun y hy => by
  rcases List.mem_append.1 hy with h | h
  · exact ha y h
  · exact hb y h

theorem NoneAlive.replicate (n : Nat) : NoneAlive (List.replicate n (none : Option (Obj α))) := fun y hy => by
  rw [List.eq_of_mem_replicate hy]; rfl

theorem NoneAlive.drop {a : Slots α} (ha : NoneAlive a) (n : Nat) : NoneAlive (a.drop n) := fun y hy => ha y (List.mem_of_mem_drop hy)

section
variable {E : Elt α} {o : Objs α} {Γ : List (Nat × Slots α)} {comp : α → α → Bool}
variable {A : Allocator} {fA : Nat → Prop} {hA : Sound A fA} {b : Nat} {s : A.St}

theorem TPool.perm {Γ' : List (Nat × Slots α)} (h : Γ.Perm Γ') : TPool hA b E s o Γ = TPool hA b E s o Γ' := TStore.perm h

theorem BHeap.ofCap_spec (hE : E.Ok) (n : Nat) (hf : fA (E.size * n)) (hn : E.size * n < W64) :
    Triple (TPool hA b E s o Γ) (BHeap.ofCap E A s n) (fun r x => ∃ g : HGhost α, g.h = r.2 ∧ g.Ok ∧ g.xs = [] ∧ r.2.cap = n ∧
      TPool hA b E r.1 o (g.own ++ Γ) x) := by
  refine Triple.bind (triple_tgrab hE n hf hn) (fun r => ?_)
  refine Triple.or ?_ ?_
  · refine Triple.and fun h1 => Triple.and fun h2 => Triple.pure _ (fun x hx => ?_)
    refine ⟨⟨⟨0, n, r.1⟩, [], []⟩, rfl, ⟨rfl, h2, fun _ => h2, fun _ h => by simp at h⟩, rfl, rfl, ?_⟩
    rw [HGhost.own_mk_null h1]; exact hx
  · refine Triple.and fun h1 => Triple.pure _ (fun x hx => ?_)
    refine ⟨⟨⟨0, n, r.1⟩, [], List.replicate n none⟩, rfl, ⟨rfl, by simp, fun h => absurd h h1, NoneAlive.replicate n⟩, rfl, rfl, ?_⟩
    rw [HGhost.own_mk h1]; exact hx

theorem BHeap.destroy_spec (hE : E.Ok) {g : HGhost α} (hg : g.Ok) (hn : E.size * g.h.cap < W64) :
    Triple (TPool hA b E s o (g.own ++ Γ)) (g.h.destroy E A s o) (fun r => TPool hA b E r.1 r.2 Γ) := by
  unfold BHeap.destroy
  by_cases h0 : g.h.beg = 0
  · rw [if_neg (by simp [h0]), HGhost.own_null h0]
    exact Triple.pure _ (fun x hx => hx)
  · rw [if_pos h0, HGhost.own_pos h0, hg.size]
    refine Triple.bind (BHeap.destroyAll_spec hE g.xs [] g.rest) (fun o' => ?_)
    refine Triple.exists fun ds => Triple.and fun h1 => Triple.and fun h2 => ?_
    have e : g.h.cap = ([] ++ (ds ++ g.rest)).length := by rw [List.nil_append, List.length_append, h1, hg.cap]
    rw [e]
    exact triple_tdealloc hE (.inr (h2.append hg.dead)) (by rw [← e]; exact hn)

theorem BHeap.copy_spec (hE : E.Ok) {g : HGhost α} (hg : g.Ok) (hf : fA (E.size * g.xs.length)) (hn : E.size * g.xs.length < W64) :
    Triple (TPool hA b E s o (g.own ++ Γ)) (g.h.copy E A s o) (fun r x => ∃ g' : HGhost α, g'.h = r.2.2 ∧ g'.Ok ∧ g'.xs = g.xs ∧
      r.2.2.cap = g.xs.length ∧ TPool hA b E r.1 r.2.1 (g'.own ++ (g.own ++ Γ)) x) := by
  unfold BHeap.copy
  rw [hg.size]
  refine Triple.bind (triple_tgrab hE g.xs.length hf hn) (fun r => ?_)
  refine Triple.or ?_ ?_
  · refine Triple.and fun h1 => Triple.and fun h2 => ?_
    have hx := List.length_eq_zero_iff.1 h2
    refine Triple.bind (R := fun o' => TPool hA b E r.2 o' (g.own ++ Γ)) ?_ (fun o' => Triple.pure _ (fun x hp => ?_))
    · rw [h2]; exact Triple.pure _ (fun x hp => hp)
    · refine ⟨⟨⟨g.xs.length, g.xs.length, r.1⟩, g.xs, []⟩, rfl, ⟨rfl, rfl, fun _ => h2, fun _ h => by simp at h⟩, rfl, rfl, ?_⟩
      rw [HGhost.own_mk_null h1]; exact hp
  · refine Triple.and fun h1 => ?_
    refine Triple.bind (R := fun o' => TPool hA b E r.2 o' ((r.1, live g.xs ++ []) :: (g.own ++ Γ))) ?_ (fun o' => Triple.pure _ (fun x hp => ?_))
    · by_cases h0 : g.h.beg = 0
      · rw [(hg.nil h0).1]
        exact Triple.pure _ (fun x hp => hp)
      · rw [HGhost.own_pos h0]
        have := BHeap.copyAll_spec (P := Pool hA b r.2) (o := o) (Γ := Γ) hE (dst := r.1) (src := g.h.beg) g.xs [] [] (List.replicate g.xs.length none) g.rest rfl
          (by simp) (NoneAlive.replicate _)
        rw [List.drop_of_length_le (by simp)] at this
        exact this
    · refine ⟨⟨⟨g.xs.length, g.xs.length, r.1⟩, g.xs, []⟩, rfl, ⟨rfl, rfl, fun h => absurd h h1, fun _ h => by simp at h⟩, rfl, rfl, ?_⟩
      rw [HGhost.own_mk h1]; exact hp

/-- the model's functions with the conditional bound as one command -/
theorem BHeap.setSize_eq (h : BHeap) (n : Nat) : h.setSize E A s o n = (do
    let r ← grab E.size A s n
    let x ← (if h.beg ≠ 0 then BHeap.moveAll E r.1 h.beg 0 (Min.min h.size n) o >>= fun o1 =>
        BHeap.destroyAll E h.beg 0 h.size o1 >>= fun o2 => E.dealloc A r.2 o2 h.beg h.cap else pure (r.2, o) : M (A.St × Objs α))
    pure (x.1, x.2, ⟨Min.min h.size n, n, r.1⟩)) := by
  unfold BHeap.setSize
  congr 1; funext r
  split
  · simp only [bind_assoc]
  · simp only [pure_bind]

theorem BHeap.insert_eq (h : BHeap) (x : HArg α) : h.insert E comp A s o x = (do
    let r ← (if h.size = h.cap then h.expand E A s o 1 else pure (s, o, h) : M (A.St × Objs α × BHeap))
    let v ← x.fetch E r.2.1
    let o1 ← E.construct r.2.1 (r.2.2.beg + r.2.2.size * E.size) v
    let u ← BHeap.percolateUp E comp r.2.2.beg r.2.2.size o1
    pure (r.2.2.beg + u.1 * E.size, r.1, u.2, { r.2.2 with size := r.2.2.size + 1 })) := by
  unfold BHeap.insert
  split
  · rfl
  · simp only [pure_bind]

theorem BHeap.setSize_spec (hE : E.Ok) {g : HGhost α} (hg : g.Ok) (hc : E.size * g.h.cap < W64) (n : Nat) (hle : g.xs.length ≤ n)
    (hf : fA (E.size * n)) (hn : E.size * n < W64) :
    Triple (TPool hA b E s o (g.own ++ Γ)) (g.h.setSize E A s o n) (fun r x => ∃ g' : HGhost α, g'.h = r.2.2 ∧ g'.Ok ∧ g'.xs = g.xs ∧
      r.2.2.cap = n ∧ (n ≠ 0 → r.2.2.beg ≠ 0) ∧ TPool hA b E r.1 r.2.1 (g'.own ++ Γ) x) := by
  rw [BHeap.setSize_eq, hg.size, Nat.min_eq_left hle]
  refine Triple.bind (triple_tgrab hE n hf hn) (fun r => ?_)
  refine Triple.bind (R := fun (y : A.St × Objs α) z => ∃ g' : HGhost α, g'.h = ⟨g.xs.length, n, r.1⟩ ∧ g'.Ok ∧ g'.xs = g.xs ∧ (n ≠ 0 → r.1 ≠ 0) ∧
      TPool hA b E y.1 y.2 (g'.own ++ Γ) z) ?_ (fun y => Triple.pure _ (fun x ⟨g', h1, h2, h3, h4, h5⟩ => ⟨g', h1, h2, h3, rfl, h4, h5⟩))
  by_cases h0 : g.h.beg = 0
  · rw [if_neg (by simp [h0]), HGhost.own_null h0]
    have hx := (hg.nil h0).1
    refine Triple.pure _ (fun x hp => ?_)
    rcases hp with ⟨h1, h2, hp⟩ | ⟨h1, hp⟩
    · refine ⟨⟨⟨g.xs.length, n, r.1⟩, g.xs, []⟩, rfl, ⟨rfl, ?_, fun _ => h2, fun _ h => by simp at h⟩, rfl, fun h => absurd h2 h, ?_⟩
      · show n = g.xs.length + 0
        omega
      · rw [HGhost.own_mk_null h1]; exact hp
    · refine ⟨⟨⟨g.xs.length, n, r.1⟩, g.xs, List.replicate n none⟩, rfl, ⟨rfl, ?_, fun h => absurd h h1, NoneAlive.replicate n⟩, rfl, fun _ => h1, ?_⟩
      · show n = g.xs.length + (List.replicate n none).length
        rw [hx]; simp
      · rw [HGhost.own_mk h1, hx]; exact hp
  · rw [if_pos h0, HGhost.own_pos h0]
    -- what follows the loop of moves
    have tail : ∀ (Δ : List (Nat × Slots α)) (o1 : Objs α) (ms : List α), ms.length = g.xs.length →
        Triple (TPool hA b E r.2 o1 ((g.h.beg, live ms ++ g.rest) :: (Δ ++ Γ)))
          (BHeap.destroyAll E g.h.beg 0 g.xs.length o1 >>= fun o2 => E.dealloc A r.2 o2 g.h.beg g.h.cap)
          (fun y => TPool hA b E y.1 y.2 (Δ ++ Γ)) := by
      intro Δ o1 ms hms
      rw [← hms]
      refine Triple.bind (BHeap.destroyAll_spec hE ms [] g.rest) (fun o2 => ?_)
      refine Triple.exists fun ds => Triple.and fun h1 => Triple.and fun h2 => ?_
      have e : g.h.cap = ([] ++ (ds ++ g.rest)).length := by rw [List.nil_append, List.length_append, h1, hms, hg.cap]
      rw [e]
      exact triple_tdealloc hE (.inr (h2.append hg.dead)) (by rw [← e]; exact hc)
    refine Triple.or ?_ ?_
    · refine Triple.and fun h1 => Triple.and fun h2 => ?_
      have hx : g.xs = [] := List.length_eq_zero_iff.1 (by omega)
      refine Triple.bind (R := fun o1 => TPool hA b E r.2 o1 ((g.h.beg, live g.xs ++ g.rest) :: ([] ++ Γ))) ?_ (fun o1 => ?_)
      · rw [hx]; exact Triple.pure _ (fun x hp => hp)
      · refine (tail [] o1 g.xs rfl).post (fun y x hp => ?_)
        refine ⟨⟨⟨g.xs.length, n, r.1⟩, g.xs, []⟩, rfl, ⟨rfl, ?_, fun _ => h2, fun _ h => by simp at h⟩, rfl, fun h => absurd h2 h, ?_⟩
        · show n = g.xs.length + 0
          omega
        · rw [HGhost.own_mk_null h1]; exact hp
    · refine Triple.and fun h1 => ?_
      refine Triple.bind (BHeap.moveAll_spec (P := Pool hA b r.2) (o := o) (Γ := Γ) hE (dst := r.1) (src := g.h.beg) g.xs [] [] (List.replicate n none) g.rest rfl
        (by simpa using hle) (NoneAlive.replicate _)) (fun o1 => ?_)
      refine Triple.exists fun ms => Triple.and fun hms => ?_
      rw [TStore.perm (.swap _ _ _)]
      refine (tail [_] o1 ms (by rw [hms]; simp)).post (fun y x hp => ?_)
      refine ⟨⟨⟨g.xs.length, n, r.1⟩, g.xs, (List.replicate n none).drop g.xs.length⟩, rfl, ⟨rfl, ?_, fun h => absurd h h1, (NoneAlive.replicate n).drop _⟩, rfl, fun _ => h1, ?_⟩
      · show n = g.xs.length + ((List.replicate n none).drop g.xs.length).length
        simp; omega
      · rw [HGhost.own_mk h1]; exact hp

/-- the value of an argument of `insert`. Proof helper, not code. -/
def HArg.Is (E : Elt α) (x : HArg α) (v : α) (Γ : List (Nat × Slots α)) : Prop :=
  ∀ (P : List (Nat × List UInt8) → HProp) [Store P] (o : Objs α) (Δ : List (Nat × Slots α)),
    Triple (TStore P E o (Δ ++ Γ)) (x.fetch E o) (fun r h => r = v ∧ TStore P E o (Δ ++ Γ) h)

theorem HArg.is_val (v : α) : HArg.Is E (.val v) v Γ := fun _ _ _ _ => Triple.pure _ (fun _ hh => ⟨rfl, hh⟩)

theorem HArg.is_ref (hE : E.Ok) {q k : Nat} {xs : List α} {rest : Slots α} {v : α} (hk : xs[k]? = some v) (hm : (q, live xs ++ rest) ∈ Γ) :
    HArg.Is E (.ref (q + k * E.size)) v Γ := fun P _ o Δ => by
  obtain ⟨i, hi⟩ := List.getElem?_of_mem (List.mem_append_right Δ hm)
  rw [TStore.perm (perm_eraseIdx hi)]
  exact triple_read hE (live_get hk) rfl

/-- the capacity after `insert`. Proof helper, not code. -/
def hgrown (size cap : Nat) : Nat := if size = cap then cap + Max.max cap 1 else cap

/-- what `insert` does to the list of elements. Proof helper, not code. -/
def heapInsert (comp : α → α → Bool) (ys : List α) (v : α) : List α := upList comp v ys.length (ys ++ [v])

theorem BHeap.insert_exact (hE : E.Ok) {g : HGhost α} (hg : g.Ok) (hc : E.size * g.h.cap < W64) {x : HArg α} {v : α}
    (hx : HArg.Is E x v Γ ∨ (g.xs.length ≠ g.h.cap ∧ HArg.Is E x v (g.own ++ Γ)))
    (hf : g.xs.length = g.h.cap → fA (E.size * (g.h.cap + Max.max g.h.cap 1)))
    (hn : g.xs.length = g.h.cap → E.size * (g.h.cap + Max.max g.h.cap 1) < W64) :
    Triple (TPool hA b E s o (g.own ++ Γ)) (g.h.insert E comp A s o x) (fun r z => ∃ g' : HGhost α, g'.h = r.2.2.2 ∧ g'.Ok ∧
      g'.xs.Perm (v :: g.xs) ∧ (∃ k, g'.xs[k]? = some v ∧ r.1 = g'.h.beg + k * E.size) ∧
      ((StrictWeak comp → HeapOrd comp g.xs → HeapOrd comp g'.xs) ∧ g'.xs = heapInsert comp g.xs v) ∧ r.2.2.2.cap = hgrown g.xs.length g.h.cap ∧
      TPool hA b E r.2.1 r.2.2.1 (g'.own ++ Γ) z) := by
  rw [BHeap.insert_eq]
  have key : Triple (TPool hA b E s o (g.own ++ Γ)) (if g.h.size = g.h.cap then g.h.expand E A s o 1 else pure (s, o, g.h)) (fun r z =>
      ∃ g' : HGhost α, g'.h = r.2.2 ∧ g'.Ok ∧ g'.xs = g.xs ∧ r.2.2.cap = hgrown g.xs.length g.h.cap ∧ g.xs.length < r.2.2.cap ∧
        (g.xs.length ≠ g.h.cap → g' = g) ∧ TPool hA b E r.1 r.2.1 (g'.own ++ Γ) z) := by
    have hle := hg.cap
    unfold hgrown
    rw [hg.size]
    by_cases hcap : g.xs.length = g.h.cap
    · rw [if_pos hcap, if_pos hcap]
      refine (BHeap.setSize_spec hE hg hc _ (by omega) (hf hcap) (hn hcap)).post (fun r z ⟨g', h1, h2, h3, h4, h5, h6⟩ => ?_)
      exact ⟨g', h1, h2, h3, h4, by omega, fun h => absurd hcap h, h6⟩
    · rw [if_neg hcap, if_neg hcap]
      exact Triple.pure _ (fun z hp => ⟨g, rfl, hg, rfl, rfl, by show g.xs.length < g.h.cap; omega, fun _ => rfl, hp⟩)
  refine Triple.bind (R := fun (r : A.St × Objs α × BHeap) z => ∃ g' : HGhost α, g'.h = r.2.2 ∧ g'.Ok ∧ g'.xs = g.xs ∧ r.2.2.cap = hgrown g.xs.length g.h.cap ∧ g.xs.length < r.2.2.cap ∧
        (g.xs.length ≠ g.h.cap → g' = g) ∧ TPool hA b E r.1 r.2.1 (g'.own ++ Γ) z) key (fun r => ?_)
  refine Triple.exists fun g' => Triple.and fun h1 => Triple.and fun h2 => Triple.and fun h3 => Triple.and fun h4 => Triple.and fun h5 => Triple.and fun h6 => ?_
  have hx' : Triple (TPool hA b E r.1 r.2.1 (g'.own ++ Γ)) (x.fetch E r.2.1) (fun u z => u = v ∧ TPool hA b E r.1 r.2.1 (g'.own ++ Γ) z) := by
    rcases hx with hx | ⟨hr, hx⟩
    · exact hx _ _ _
    · have := hx (Pool hA b r.1) r.2.1 []
      rw [h6 hr]; exact this
  refine Triple.bind hx' (fun v' => Triple.and fun hv' => ?_)
  rw [hv', ← h1]
  have hcap := h2.cap
  rw [h1, h3] at hcap
  have hb : g'.h.beg ≠ 0 := fun h0 => by have := h2.null h0; rw [h1] at this; omega
  rw [HGhost.own_pos hb, h2.size, h3]
  obtain ⟨y, rest, hr⟩ : ∃ y rest, g'.rest = y :: rest := by
    cases hrest : g'.rest with
    | nil => rw [hrest] at hcap; simp at hcap; omega
    | cons y rest => exact ⟨y, rest, rfl⟩
  have hdead := h2.dead
  rw [hr] at hdead hcap ⊢
  refine Triple.bind (triple_construct hE (y := y) (by rw [← live_length]; exact get_mid ..) (by rw [hdead y (by simp)]; rfl) _) (fun o' => ?_)
  have e1 : (live g.xs ++ y :: rest).set g.xs.length (some ⟨v, true⟩) = live (g.xs ++ [v]) ++ rest := by
    rw [live_append, List.append_assoc]
    conv => lhs; rw [← live_length, set_mid]
    rfl
  rw [e1]
  refine Triple.bind (BHeap.percolateUp_spec hE g.xs.length (g.xs ++ [v]) (get_mid ..)) (fun u => ?_)
  refine Triple.exists fun zs => Triple.and fun k1 => Triple.and fun k2 => Triple.and fun k3 => Triple.pure _ (fun z hp => ?_)
  have hl := k1.length_eq
  rw [List.length_append, List.length_singleton] at hl
  refine ⟨⟨⟨g.xs.length + 1, g'.h.cap, g'.h.beg⟩, zs, rest⟩, rfl, ⟨hl.symm, ?_, fun h => absurd h hb, fun y hy => hdead y (by simp [hy])⟩, ?_, ⟨u.1, k2, rfl⟩, ?_, ?_, ?_⟩
  · show g'.h.cap = zs.length + rest.length
    rw [h1, hcap, hl, List.length_cons]; omega
  · exact k1.trans List.perm_append_comm
  · exact ⟨fun hsw ho => k3.1 hsw (UpInv.start ho v), k3.2⟩
  · show g'.h.cap = _
    rw [h1, h4]
  · rw [HGhost.own_mk hb]; exact hp

theorem BHeap.insert_spec (hE : E.Ok) {g : HGhost α} (hg : g.Ok) (hc : E.size * g.h.cap < W64) {x : HArg α} {v : α}
    (hx : HArg.Is E x v Γ ∨ (g.xs.length ≠ g.h.cap ∧ HArg.Is E x v (g.own ++ Γ)))
    (hf : g.xs.length = g.h.cap → fA (E.size * (g.h.cap + Max.max g.h.cap 1)))
    (hn : g.xs.length = g.h.cap → E.size * (g.h.cap + Max.max g.h.cap 1) < W64) :
    Triple (TPool hA b E s o (g.own ++ Γ)) (g.h.insert E comp A s o x) (fun r z => ∃ g' : HGhost α, g'.h = r.2.2.2 ∧ g'.Ok ∧
      g'.xs.Perm (v :: g.xs) ∧ (∃ k, g'.xs[k]? = some v ∧ r.1 = g'.h.beg + k * E.size) ∧
      (StrictWeak comp → HeapOrd comp g.xs → HeapOrd comp g'.xs) ∧ r.2.2.2.cap = hgrown g.xs.length g.h.cap ∧
      TPool hA b E r.2.1 r.2.2.1 (g'.own ++ Γ) z) :=
  (BHeap.insert_exact hE hg hc hx hf hn).post (fun _ _ ⟨g', h1, h2, h3, h4, h5, h6⟩ => ⟨g', h1, h2, h3, h4, h5.1, h6⟩)

theorem BHeap.reserve_spec (hE : E.Ok) {g : HGhost α} (hg : g.Ok) (hc : E.size * g.h.cap < W64) (n : Nat)
    (hf : g.h.cap < n → fA (E.size * n)) (hn : g.h.cap < n → E.size * n < W64) :
    Triple (TPool hA b E s o (g.own ++ Γ)) (g.h.reserve E A s o n) (fun r x => ∃ g' : HGhost α, g'.h = r.2.2 ∧ g'.Ok ∧ g'.xs = g.xs ∧
      r.2.2.cap = Max.max g.h.cap n ∧ TPool hA b E r.1 r.2.1 (g'.own ++ Γ) x) := by
  unfold BHeap.reserve
  by_cases h : g.h.cap < n
  · rw [if_pos h]
    refine (BHeap.setSize_spec hE hg hc n (by have := hg.cap; omega) (hf h) (hn h)).post (fun r z ⟨g', h1, h2, h3, h4, h5, h6⟩ => ?_)
    exact ⟨g', h1, h2, h3, by omega, h6⟩
  · rw [if_neg h]
    exact Triple.pure _ (fun z hp => ⟨g, rfl, hg, rfl, by show g.h.cap = _; omega, hp⟩)

theorem BHeap.insertAll_exact (hE : E.Ok) (vs : List α) {g : HGhost α} (hg : g.Ok) (hc : E.size * g.h.cap < W64)
    (hroom : g.xs.length + vs.length ≤ g.h.cap) :
    Triple (TPool hA b E s o (g.own ++ Γ)) (BHeap.insertAll E comp A s o g.h vs) (fun r z => ∃ g' : HGhost α, g'.h = r.2.2 ∧ g'.Ok ∧
      g'.xs.Perm (vs ++ g.xs) ∧ ((StrictWeak comp → HeapOrd comp g.xs → HeapOrd comp g'.xs) ∧ g'.xs = vs.foldl (heapInsert comp) g.xs) ∧ r.2.2.cap = g.h.cap ∧
      TPool hA b E r.1 r.2.1 (g'.own ++ Γ) z) := by
  induction vs generalizing g s o with
  | nil => exact Triple.pure _ (fun z hp => ⟨g, rfl, hg, .refl _, ⟨fun _ h => h, rfl⟩, rfl, hp⟩)
  | cons v vs ih =>
    rw [List.length_cons] at hroom
    refine Triple.bind (BHeap.insert_exact hE hg hc (.inl (HArg.is_val v)) (fun h => by omega) (fun h => by omega)) (fun r => ?_)
    refine Triple.exists fun g' => Triple.and fun h1 => Triple.and fun h2 => Triple.and fun h3 => Triple.and fun _ => Triple.and fun h5 => Triple.and fun h6 => ?_
    have hcap : g'.h.cap = g.h.cap := by rw [h1, h6]; unfold hgrown; rw [if_neg (by omega)]
    rw [← h1]
    refine (ih h2 (by rw [hcap]; exact hc) (by rw [hcap, h3.length_eq, List.length_cons]; omega)).post (fun r' z ⟨g'', k1, k2, k3, k4, k5, k6⟩ => ?_)
    refine ⟨g'', k1, k2, k3.trans ?_, ⟨fun hs ho => k4.1 hs (h5.1 hs ho), by rw [k4.2, h5.2]; rfl⟩, by rw [k5, hcap], k6⟩
    exact ((h3.append_left vs).trans List.perm_middle)

theorem BHeap.insertAll_spec (hE : E.Ok) (vs : List α) {g : HGhost α} (hg : g.Ok) (hc : E.size * g.h.cap < W64)
    (hroom : g.xs.length + vs.length ≤ g.h.cap) :
    Triple (TPool hA b E s o (g.own ++ Γ)) (BHeap.insertAll E comp A s o g.h vs) (fun r z => ∃ g' : HGhost α, g'.h = r.2.2 ∧ g'.Ok ∧
      g'.xs.Perm (vs ++ g.xs) ∧ (StrictWeak comp → HeapOrd comp g.xs → HeapOrd comp g'.xs) ∧ r.2.2.cap = g.h.cap ∧
      TPool hA b E r.1 r.2.1 (g'.own ++ Γ) z) :=
  (BHeap.insertAll_exact hE vs hg hc hroom).post (fun _ _ ⟨g', h1, h2, h3, h4, h5⟩ => ⟨g', h1, h2, h3, h4.1, h5⟩)

theorem BHeap.ofList_spec (hE : E.Ok) (vs : List α) (hf : fA (E.size * vs.length)) (hn : E.size * vs.length < W64) :
    Triple (TPool hA b E s o Γ) (BHeap.ofList E comp A s o vs) (fun r z => ∃ g : HGhost α, g.h = r.2.2 ∧ g.Ok ∧
      g.xs.Perm vs ∧ ((StrictWeak comp → HeapOrd comp g.xs) ∧ g.xs = vs.foldl (heapInsert comp) []) ∧ r.2.2.cap = vs.length ∧ TPool hA b E r.1 r.2.1 (g.own ++ Γ) z) := by
  refine Triple.bind (BHeap.ofCap_spec hE vs.length hf hn) (fun r => ?_)
  refine Triple.exists fun g => Triple.and fun h1 => Triple.and fun h2 => Triple.and fun h3 => Triple.and fun h4 => ?_
  rw [← h1] at h4 ⊢
  refine (BHeap.insertAll_exact hE vs h2 (by rw [h4]; exact hn) (by rw [h3, h4]; simp)).post (fun r' z ⟨g', k1, k2, k3, k4, k5, k6⟩ => ?_)
  rw [h3, List.append_nil] at k3
  exact ⟨g', k1, k2, k3, ⟨fun hs => k4.1 hs (by rw [h3]; exact HeapOrd.nil), by rw [k4.2, h3]⟩, by rw [k5, h4], k6⟩

theorem BHeap.peek_spec (hE : E.Ok) {g : HGhost α} (hg : g.Ok) {v : α} (hv : g.xs[0]? = some v) :
    Triple (TPool hA b E s o (g.own ++ Γ)) (g.h.peek E o) (fun r z => r = v ∧ TPool hA b E s o (g.own ++ Γ) z) := by
  have hb := hg.pos (List.getElem?_eq_some_iff.1 hv).1
  rw [HGhost.own_pos hb]
  have := triple_read (P := Pool hA b s) (o := o) (Γ := Γ) (q := g.h.beg) hE (live_get (rest := g.rest) hv) rfl
  rw [Nat.zero_mul] at this
  exact this

theorem BHeap.clear_spec (hE : E.Ok) {g : HGhost α} (hg : g.Ok) :
    Triple (TPool hA b E s o (g.own ++ Γ)) (g.h.clear E o) (fun r z => ∃ g' : HGhost α, g'.h = r.2 ∧ g'.Ok ∧ g'.xs = [] ∧
      r.2.cap = g.h.cap ∧ TPool hA b E s r.1 (g'.own ++ Γ) z) := by
  unfold BHeap.clear
  by_cases h0 : g.h.beg = 0
  · rw [HGhost.own_null h0, hg.size, (hg.nil h0).1]
    refine Triple.pure _ (fun z hp => ⟨⟨⟨0, g.h.cap, g.h.beg⟩, [], []⟩, rfl, ⟨rfl, hg.null h0, fun _ => hg.null h0, fun _ h => by simp at h⟩, rfl, rfl, ?_⟩)
    rw [HGhost.own_mk_null h0]; exact hp
  · rw [HGhost.own_pos h0, hg.size]
    refine Triple.bind (BHeap.destroyAll_spec hE g.xs [] g.rest) (fun o' => ?_)
    refine Triple.exists fun ds => Triple.and fun h1 => Triple.and fun h2 => Triple.pure _ (fun z hp => ?_)
    refine ⟨⟨⟨0, g.h.cap, g.h.beg⟩, [], ds ++ g.rest⟩, rfl, ⟨rfl, ?_, fun h => absurd h h0, h2.append hg.dead⟩, rfl, rfl, ?_⟩
    · show g.h.cap = 0 + (ds ++ g.rest).length
      rw [List.length_append, h1, hg.cap]; omega
    · rw [HGhost.own_mk h0]; exact hp

/-- what `pop` leaves when `ys` comes after the first element. Proof helper, not code. -/
def heapPop (comp : α → α → Bool) (ys : List α) : List α :=
  match ys.getLast? with
  | some last => downList comp (ys.length + 1) 0 (last :: ys.dropLast)
  | none => []

/-- `pop` of the last of several elements -/
theorem BHeap.pop_exact (hE : E.Ok) {g : HGhost α} (hg : g.Ok) {v : α} (hv : g.xs[0]? = some v) (h2 : 2 ≤ g.xs.length ∨ E.trivial = true) :
    Triple (TPool hA b E s o (g.own ++ Γ)) (g.h.pop E comp o) (fun r z => r.1 = v ∧ ∃ g' : HGhost α, g'.h = r.2.2 ∧ g'.Ok ∧
      g.xs.Perm (v :: g'.xs) ∧ ((StrictWeak comp → HeapOrd comp g.xs → HeapOrd comp g'.xs) ∧ g'.xs = heapPop comp g.xs.tail) ∧ r.2.2.cap = g.h.cap ∧
      TPool hA b E s r.2.1 (g'.own ++ Γ) z) := by
  have hlt := (List.getElem?_eq_some_iff.1 hv).1
  have hb := hg.pos hlt
  have hzero : g.h.beg = g.h.beg + 0 * E.size := by rw [Nat.zero_mul, Nat.add_zero]
  rw [HGhost.own_pos hb]
  unfold BHeap.pop
  rw [hg.size]
  have hrd := triple_read (P := Pool hA b s) (o := o) (Γ := Γ) (q := g.h.beg) hE (live_get (rest := g.rest) hv) rfl
  rw [← hzero] at hrd
  refine Triple.bind hrd (fun root => Triple.and fun hroot => ?_)
  replace hroot : root = v := hroot
  rw [hroot]
  by_cases h1 : g.xs.length = 1
  · have htriv : E.trivial = true := h2.resolve_left (by omega)
    have hxs : g.xs = [v] := by
      obtain ⟨y, hy⟩ := List.length_eq_one_iff.1 h1
      rw [hy] at hv ⊢
      simp at hv; rw [hv]
    rw [h1, hxs, Nat.sub_self, ← hzero]
    unfold BHeap.moveElem
    rw [if_pos rfl, bind_assoc]
    rw [hxs] at hrd
    refine Triple.bind hrd (fun v' => Triple.and fun hv' => ?_)
    have ha := triple_assign (P := Pool hA b s) (o := o) (Γ := Γ) (q := g.h.beg) hE (live_get (rest := g.rest) (xs := [v]) (k := 0) rfl) rfl (E.selfMoved v')
    rw [← hzero] at ha
    refine Triple.bind ha (fun o1 => ?_)
    have hd := triple_destroy (P := Pool hA b s) (o := o1) (Γ := Γ) (q := g.h.beg) (k := 0) (x := ⟨E.selfMoved v', true⟩) hE (sl := (live [v] ++ g.rest).set 0 (some ⟨E.selfMoved v', true⟩)) rfl rfl
    rw [← hzero] at hd
    refine Triple.bind hd (fun o2 => ?_)
    show Triple (TPool hA b E s o2 ((g.h.beg, some ⟨E.selfMoved v', false⟩ :: g.rest) :: Γ)) _ _
    refine Triple.bind (R := fun o3 z => TPool hA b E s o3 ((g.h.beg, some ⟨E.selfMoved v', false⟩ :: g.rest) :: Γ) z) ?_ (fun o3 => Triple.pure _ (fun z hp => ?_))
    · unfold BHeap.percolateDown
      refine Triple.bind (triple_read hE (k := 0) (x := ⟨E.selfMoved v', false⟩) rfl (by rw [htriv]; rfl)) (fun w => Triple.and fun hw => ?_)
      replace hw : w = E.selfMoved v' := hw
      rw [hw]
      refine Triple.bind (R := fun r z => r = (0, o2) ∧ TPool hA b E s o2 ((g.h.beg, some ⟨E.selfMoved v', false⟩ :: g.rest) :: Γ) z) ?_ (fun r => Triple.and fun hr => ?_)
      · exact Triple.pure _ (fun z hp => ⟨rfl, hp⟩)
      · rw [hr]
        exact triple_assign hE (k := 0) (x := ⟨E.selfMoved v', false⟩) rfl (by rw [htriv]; rfl) _
    · refine ⟨rfl, ⟨⟨0, g.h.cap, g.h.beg⟩, [], some ⟨E.selfMoved v', false⟩ :: g.rest⟩, rfl, ⟨rfl, ?_, fun h => absurd h hb, ?_⟩, .refl _, ⟨fun _ _ => HeapOrd.nil, rfl⟩, rfl, ?_⟩
      · show g.h.cap = 0 + (g.rest.length + 1)
        rw [hg.cap, h1]; omega
      · intro y hy
        rcases List.mem_cons.1 hy with rfl | hy
        · rfl
        · exact hg.dead y hy
      · rw [HGhost.own_mk hb]; exact hp
  · -- at least two elements
    obtain ⟨mid, last, hxs⟩ : ∃ mid last, g.xs = v :: (mid ++ [last]) := by
      cases hg' : g.xs with
      | nil => rw [hg'] at hlt; simp at hlt
      | cons y ys =>
        rw [hg'] at hv h1
        obtain rfl : y = v := by simpa using hv
        rcases List.eq_nil_or_concat ys with rfl | ⟨mid, last, rfl⟩
        · simp at h1
        · exact ⟨mid, last, by simp⟩
    have hlen : g.xs.length - 1 = (v :: mid).length := by rw [hxs]; simp
    have hne : g.h.beg ≠ g.h.beg + (v :: mid).length * E.size := by
      have := Nat.mul_pos (show 0 < (v :: mid).length by simp) hE.pos
      omega
    rw [hlen]
    unfold BHeap.moveElem
    rw [if_neg hne, bind_assoc]
    have e1 : live g.xs ++ g.rest = live ((v :: mid) ++ [last]) ++ g.rest := by rw [hxs]; rfl
    rw [e1]
    refine Triple.bind (triple_moveOut hE (live_get (get_mid ..)) rfl) (fun r => Triple.and fun hr => ?_)
    replace hr : r.1 = last := hr
    rw [hr, live_set (by simp), set_mid]
    have ha := triple_assign (P := Pool hA b s) (o := r.2) (Γ := Γ) (q := g.h.beg) hE (live_get (rest := g.rest) (xs := (v :: mid) ++ [E.moved last]) (k := 0) rfl) rfl last
    rw [← hzero] at ha
    refine Triple.bind ha (fun o1 => ?_)
    show Triple (TPool hA b E s o1 ((g.h.beg, live ((last :: mid) ++ [E.moved last]) ++ g.rest) :: Γ)) _ _
    have hml : (v :: mid).length = (last :: mid).length := rfl
    rw [hml]
    refine Triple.bind (triple_destroy hE (live_get (get_mid ..)) rfl) (fun o2 => ?_)
    have e2 : (live ((last :: mid) ++ [E.moved last]) ++ g.rest).set (last :: mid).length (some ⟨E.moved last, false⟩) =
        live (last :: mid) ++ (some ⟨E.moved last, false⟩ :: g.rest) := by
      rw [live_append, List.append_assoc]
      conv => lhs; rw [← live_length]
      exact set_mid ..
    show Triple (TPool hA b E s o2 ((g.h.beg, (live ((last :: mid) ++ [E.moved last]) ++ g.rest).set (last :: mid).length (some ⟨E.moved last, false⟩)) :: Γ)) _ _
    rw [e2]
    refine Triple.bind (BHeap.percolateDown_spec hE (last :: mid) (by simp)) (fun o3 => ?_)
    refine Triple.exists fun zs => Triple.and fun k1 => Triple.and fun k2 => Triple.pure _ (fun z hp => ?_)
    have hl := k1.length_eq
    refine ⟨rfl, ⟨⟨(last :: mid).length, g.h.cap, g.h.beg⟩, zs, some ⟨E.moved last, false⟩ :: g.rest⟩, rfl, ⟨hl.symm, ?_, fun h => absurd h hb, ?_⟩, ?_, ⟨fun hsw ho => k2.1 hsw ?_, ?_⟩, rfl, ?_⟩
    · show g.h.cap = zs.length + (g.rest.length + 1)
      rw [hg.cap, hl, hxs]; simp; omega
    · intro y hy
      rcases List.mem_cons.1 hy with rfl | hy
      · rfl
      · exact hg.dead y hy
    · rw [hxs]
      exact .cons _ (List.perm_append_comm.trans k1.symm)
    · have := DownInv.start ho (last :: mid).length last
      rw [hxs] at this
      have e3 : ((v :: (mid ++ [last])).set 0 last).take (last :: mid).length = last :: mid := by simp
      rw [e3] at this
      exact this
    · show zs = _
      rw [k2.2, hxs]
      simp [heapPop]
    · rw [HGhost.own_mk hb]; exact hp

theorem BHeap.pop_spec (hE : E.Ok) {g : HGhost α} (hg : g.Ok) {v : α} (hv : g.xs[0]? = some v) (h2 : 2 ≤ g.xs.length ∨ E.trivial = true) :
    Triple (TPool hA b E s o (g.own ++ Γ)) (g.h.pop E comp o) (fun r z => r.1 = v ∧ ∃ g' : HGhost α, g'.h = r.2.2 ∧ g'.Ok ∧
      g.xs.Perm (v :: g'.xs) ∧ (StrictWeak comp → HeapOrd comp g.xs → HeapOrd comp g'.xs) ∧ r.2.2.cap = g.h.cap ∧
      TPool hA b E s r.2.1 (g'.own ++ Γ) z) :=
  (BHeap.pop_exact hE hg hv h2).post (fun _ _ ⟨h0, g', h1, h2, h3, h4, h5⟩ => ⟨h0, g', h1, h2, h3, h4.1, h5⟩)

end
end KTL

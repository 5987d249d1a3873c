import Verif.Alloc.Rebind
import Verif.Props.Copies
import Verif.Props.Interchange
import Verif.Props.Handles

/- C79: typed allocators of different element types over one allocator. -/
namespace KTL

/-- Every request is for at least one object, and its size does not reach the end of the address space (C31: larger products wrap),
whichever of the types in the program it is for. -/
def RSane (t : AllocTy) (sz : Nat) (ops : List ROp) : Prop :=
  ∀ i n, ROp.allocate i n ∈ ops → 0 < n ∧ ∀ z, z = sz ∨ (∃ j, ROp.rebind j z ∈ ops) → 0 < z ∧ z * n + t.margin < W64

/-! ### Proof -/

/-- what the typed allocators do is what a client of a single untyped one does -/
structure RRel (sys : Sys) (t : AllocTy) (Z : Nat → Prop) (c : Typed (t.denote sys)) (d : Client (t.denote sys)) : Prop where
  cur : t.like sys c.cur d.st
  live : d.live = c.live.map fun y => (y.p, y.bytes)
  foreign : d.foreign = []
  len : ∀ y ∈ c.live, y.bytes.length = y.sz * y.n ∧ y.sz * y.n < W64
  sizes : (∀ x ∈ c.objs, Z x.1) ∧ ∀ y ∈ c.live, Z y.sz

theorem rebind_step (sys : Sys) (t : AllocTy) (hc : t.copyable = true) (Z : Nat → Prop) (c : Typed (t.denote sys)) (d : Client (t.denote sys)) (h : RRel sys t Z c d) (o : ROp)
    (ha : ∀ i n, o = .allocate i n → 0 < n ∧ ∀ z, Z z → 0 < z ∧ z * n + t.margin < W64) (hr : ∀ j z, o = .rebind j z → Z z) :
    ∃ ops, Sane t ops ∧ SameM (RRel sys t Z) (c.step sys t o) (d.run sys ops) := by
  obtain ⟨h1, h3, hf, h4, h5, h6⟩ := h
  have hm : ∀ z n, z * n < W64 → mulW z n = z * n := fun z n h => Nat.mod_eq_of_lt h
  have nil : Sane t [] := fun n hn => by cases hn
  have one : ∀ o, d.run sys [o] = d.step sys o := fun o => by
    simp only [Client.run]; exact bind_pure _
  have copied : ∀ (i : Nat) z (x : Nat × (t.denote sys).St), c.objs[i]? = some x → Z z →
      ∃ ops, Sane t ops ∧ SameM (RRel sys t Z) (pure { c with objs := c.objs ++ [(z, t.sync sys c.cur x.2)] }) (d.run sys ops) := by
    intro i z x hx hz
    refine ⟨[], nil, SameM.pure ⟨h1, h3, hf, h4, fun y hy => ?_, h6⟩⟩
    rcases List.mem_append.1 hy with hy | hy
    · exact h5 y hy
    · cases List.mem_singleton.1 hy; exact hz
  have stay : ∃ ops, Sane t ops ∧ SameM (RRel sys t Z) (pure c) (d.run sys ops) := ⟨[], nil, SameM.pure ⟨h1, h3, hf, h4, h5, h6⟩⟩
  have used : ∀ {i : Nat} {x : Nat × (t.denote sys).St} (s : (t.denote sys).St), c.objs[i]? = some x → ∀ y ∈ c.objs.set i (x.1, s), Z y.1 := by
    intro i x s hx y hy
    rcases List.mem_or_eq_of_mem_set hy with hy | rfl
    · exact h5 y hy
    · exact h5 x (List.mem_of_getElem? hx)
  cases o with
  | copy i =>
    simp only [Typed.step]
    cases hx : c.objs[i]? with
    | none => exact stay
    | some x => exact copied i x.1 x hx (h5 x (List.mem_of_getElem? hx))
  | move i =>
    simp only [Typed.step]
    cases hx : c.objs[i]? with
    | none => exact stay
    | some x => exact copied i x.1 x hx (h5 x (List.mem_of_getElem? hx))
  | rebind i z =>
    simp only [Typed.step]
    cases hx : c.objs[i]? with
    | none => exact stay
    | some x => exact copied i z x hx (hr i z rfl)
  | drop i =>
    simp only [Typed.step]
    split
    · exact ⟨[], nil, SameM.pure ⟨h1, h3, hf, h4, fun y hy => h5 y (List.mem_of_mem_eraseIdx hy), h6⟩⟩
    · exact stay
  | allocate i n =>
    simp only [Typed.step]
    cases hx : c.objs[i]? with
    | none => exact stay
    | some x =>
      obtain ⟨hn, hz⟩ := ha i n rfl
      have hzx := h5 x (List.mem_of_getElem? hx)
      obtain ⟨hz1, hz2⟩ := hz x.1 hzx
      refine ⟨[.allocate (x.1 * n)], fun m hh => ?_, ?_⟩
      · cases List.mem_singleton.1 hh
        exact ⟨by omega, Nat.mul_pos hz1 hn, hz2⟩
      rw [one]
      simp only [Client.step, typedAlloc]
      rw [hm x.1 n (by omega)]
      refine SameM.bind ((like_blind sys t).alloc _ d.st _ (like_trans sys t (sync_like sys t hc _ _) h1)) fun r r' hr => ?_
      rw [hr.1]
      refine SameM.ite (fun _ => SameM.pure ⟨hr.2, h3, hf, h4, used r.2 hx, h6⟩) fun _ => ?_
      intro w
      rw [M.bind_apply, M.bind_apply]
      have hl := readBytes_length' (x.1 * n) r'.1 w
      cases hb : M.readBytes r'.1 (x.1 * n) w with
      | ub => trivial
      | oom w' => rfl
      | ok bs w' =>
        refine ⟨rfl, hr.2, ?_, hf, ?_, used r.2 hx, ?_⟩
        · simp only [List.map_cons, h3]
        · intro y hy
          rcases List.mem_cons.1 hy with rfl | hy
          · exact ⟨hl bs w' hb, by show x.1 * n < W64; omega⟩
          · exact h4 y hy
        · intro y hy
          rcases List.mem_cons.1 hy with rfl | hy
          · exact hzx
          · exact h6 y hy
  | deallocate i k =>
    simp only [Typed.step]
    cases hx : c.objs[i]? with
    | none => exact stay
    | some x =>
      cases hy : c.live[k]? with
      | none => exact stay
      | some y =>
        simp only
        split
        · rename_i hz
          have e' : d.live[k]? = some (y.p, y.bytes) := by rw [h3, List.getElem?_map, hy]; rfl
          obtain ⟨g1, g2⟩ := h4 y (List.mem_of_getElem? hy)
          refine ⟨[.deallocate k], fun j hh => by simp at hh, ?_⟩
          rw [one]
          simp only [Client.step, typedDealloc, e']
          rw [hz, hm y.sz y.n g2, g1]
          refine SameM.bind ((like_blind sys t).dealloc _ d.st _ _ (like_trans sys t (sync_like sys t hc _ _) h1)) fun s s' hs => SameM.pure ?_
          refine ⟨hs, ?_, hf, fun z hz => h4 z (List.mem_of_mem_eraseIdx hz), hz ▸ used s hx, fun z hz => h6 z (List.mem_of_mem_eraseIdx hz)⟩
          simp only [h3, Linear.map_eraseIdx']
        · exact stay
  | write k off v =>
    simp only [Typed.step]
    cases hy : c.live[k]? with
    | none => exact stay
    | some y =>
      have e' : d.live[k]? = some (y.p, y.bytes) := by rw [h3, List.getElem?_map, hy]; rfl
      refine ⟨[.write k off v], fun j hh => by simp at hh, ?_⟩
      rw [one]
      simp only [Client.step, e']
      refine SameM.ite (fun _ => SameM.bind (SameM.refl _) fun _ _ _ => SameM.pure ?_) fun _ => SameM.pure ⟨h1, h3, hf, h4, h5, h6⟩
      refine ⟨h1, ?_, hf, ?_, h5, ?_⟩
      · simp only [h3, List.map_set]
      · intro z hz
        rcases List.mem_or_eq_of_mem_set hz with hz | rfl
        · exact h4 z hz
        · have := h4 y (List.mem_of_getElem? hy)
          exact ⟨by simpa using this.1, this.2⟩
      · intro z hz
        rcases List.mem_or_eq_of_mem_set hz with hz | rfl
        · exact h6 z hz
        · exact h6 y (List.mem_of_getElem? hy)

/-- same outcome -/
def ROut (sys : Sys) (t : AllocTy) (Z : Nat → Prop) : Res (Typed (t.denote sys)) → Res (Client (t.denote sys)) → Prop
  | .ok c w, .ok d w' => w = w' ∧ RRel sys t Z c d
  | .oom w, .oom w' => w = w'
  | .ub, .ub => True
  | _, _ => False

theorem rebind_run (sys : Sys) (t : AllocTy) (hc : t.copyable = true) (Z : Nat → Prop) (ops : List ROp)
    (ha : ∀ i n, ROp.allocate i n ∈ ops → 0 < n ∧ ∀ z, Z z → 0 < z ∧ z * n + t.margin < W64) (hr : ∀ j z, ROp.rebind j z ∈ ops → Z z)
    (c : Typed (t.denote sys)) (d : Client (t.denote sys)) (h : RRel sys t Z c d) (w : World) :
    ∃ sops, Sane t sops ∧ ROut sys t Z (c.run sys t ops w) (d.run sys sops w) := by
  induction ops generalizing c d w with
  | nil => exact ⟨[], (fun n hn => by cases hn), rfl, h⟩
  | cons o os ih =>
    obtain ⟨l1, hl1, hs⟩ := rebind_step sys t hc Z c d h o (fun i n e => ha i n (by simp [e])) (fun j z e => hr j z (by simp [e]))
    have hs := hs w
    simp only [Typed.run]
    rw [M.bind_apply]
    have app : ∀ l2, d.run sys (l1 ++ l2) = (do let d' ← d.run sys l1; d'.run sys l2) := fun l2 => Client.run_append sys d l1 l2
    cases h1 : c.step sys t o w <;> cases h2 : d.run sys l1 w <;> simp only [h1, h2] at hs
    · obtain ⟨rfl, hrel⟩ := hs
      obtain ⟨l2, hl2, ho⟩ := ih (fun i n hm => ha i n (List.mem_cons_of_mem _ hm)) (fun j z hm => hr j z (List.mem_cons_of_mem _ hm)) _ _ hrel _
      refine ⟨l1 ++ l2, fun n hn => ?_, ?_⟩
      · rcases List.mem_append.1 hn with hn | hn
        · exact hl1 n hn
        · exact hl2 n hn
      · rw [app, M.bind_apply, h2]
        exact ho
    · exact ⟨l1, hl1, by rw [h2]; exact hs⟩
    · exact ⟨l1, hl1, by rw [h2]; trivial⟩

/-- **C79.** A program constructs one `type_allocator<T, Alloc>`, over any copyable composition (for instance `shared<…>`), and makes copies,
moves and conversions to other element types of it, in any number and order, destroys some, allocates through any of them and deallocates
through any other one of the same type. There is no undefined behaviour; every block has room for the objects it was requested for, is
aligned, keeps its contents and overlaps no other one, of whatever type; and any two of the typed allocators compare equal. A source that
has been moved from is used like all others. -/
theorem C79_rebound_are_one (sys : Sys) (t : AllocTy) (hwf : t.WF) (hc : t.copyable = true) (b : Nat) (w : World) (hs : Storage w b t.size)
    (sz : Nat) (ops : List ROp) (hops : RSane t sz ops) :
    match playTyped sys t b sz ops w with
    | .ok c w' =>
      c.live.Pairwise (fun a d => ∀ x, ¬ ((a.p ≤ x ∧ x < a.p + a.sz * a.n) ∧ (d.p ≤ x ∧ x < d.p + d.sz * d.n))) ∧
      (∀ a ∈ c.live, a.p ≠ 0 ∧ a.p % 16 = 0 ∧ a.p + a.sz * a.n < 2 ^ 64 ∧ a.bytes.length = a.sz * a.n ∧
        ∀ i (hi : i < a.bytes.length), w'.heap.b (a.p + i) = some a.bytes[i]) ∧
      (∀ x ∈ c.objs, ∀ y ∈ c.objs, t.equal sys b (t.sync sys c.cur x.2) b (t.sync sys c.cur y.2) = some true)
    | .oom w' => w'.failed = true
    | .ub => False := by
  have key : ∃ sops, Sane t sops ∧ ROut sys t (fun z => z = sz ∨ ∃ j, ROp.rebind j z ∈ ops) (playTyped sys t b sz ops w) (play sys (t.denote sys) b sops w) := by
    unfold playTyped play
    rw [M.bind_apply]
    cases hi : (t.denote sys).init b w with
    | ub => exact ⟨[], (fun n hn => by cases hn), by rw [M.bind_apply, hi]; trivial⟩
    | oom w1 => exact ⟨[], (fun n hn => by cases hn), by rw [M.bind_apply, hi]; rfl⟩
    | ok s w1 =>
      obtain ⟨sops, h1, h2⟩ := rebind_run sys t hc (fun z => z = sz ∨ ∃ j, ROp.rebind j z ∈ ops) ops hops (fun j z hm => .inr ⟨j, hm⟩) ⟨s, [(sz, s)], []⟩
        { st := s, live := [], foreign := [] } ⟨like_refl sys t s, rfl, rfl, (fun y hy => by cases hy), (fun x hx => by cases List.mem_singleton.1 hx; exact .inl rfl), (fun y hy => by cases hy)⟩ w1
      exact ⟨sops, h1, by rw [M.bind_apply, hi]; exact h2⟩
  obtain ⟨sops, hsane, hout⟩ := key
  have h1 := C01_no_undefined_behaviour sys t hwf b w hs _ hsane
  cases hp : playTyped sys t b sz ops w <;> cases hd : play sys (t.denote sys) b sops w <;> simp only [hp, hd, ROut] at hout h1 ⊢
  case ok.ok c w' d w1 =>
    obtain ⟨rfl, hrel⟩ := hout
    have h2 := (List.pairwise_append.1 (C02_live_blocks_disjoint sys t hwf b w hs _ hsane d _ hd).1).1
    rw [hrel.live, List.pairwise_map] at h2
    have hmem : ∀ a ∈ c.live, (a.p, a.bytes) ∈ d.live := fun a ha => by rw [hrel.live]; exact List.mem_map.2 ⟨a, ha, rfl⟩
    refine ⟨?_, fun a ha => ?_, fun x hx y hy => C70_copies_equal sys t hc b _ _ _⟩
    · refine h2.imp_of_mem fun {a e} ha he hh x => ?_
      rw [← (hrel.len a ha).1, ← (hrel.len e he).1]
      exact hh x
    · have h3 := C03_blocks_aligned sys t hwf b w hs _ hsane d _ hd _ (hmem a ha)
      have h4 := (hrel.len a ha).1
      refine ⟨h3.1, h3.2.1, ?_, h4, C04_contents_preserved sys t hwf b w hs _ hsane d _ hd _ (List.mem_append.2 (.inl (hmem a ha)))⟩
      rw [← h4]; exact h3.2.2
  case oom.oom => subst hout; exact h1

/-- The element sizes of the typed allocators a program has: copies and moves add one of the same type, whatever was moved from stays.
Specification. -/
def typesAfter (zs : List Nat) : ROp → List Nat
  | .copy i | .move i => zs ++ (zs[i]?).toList
  | .rebind i z => if i < zs.length then zs ++ [z] else zs
  | .drop i => if 1 < zs.length then zs.eraseIdx i else zs
  | .allocate _ _ | .deallocate _ _ | .write _ _ _ => zs

theorem types_step (sys : Sys) (t : AllocTy) (c : Typed (t.denote sys)) (o : ROp) :
    Post (c.step sys t o) fun c' => c'.objs.map Prod.fst = typesAfter (c.objs.map Prod.fst) o := by
  have same : ∀ {i : Nat} {x : Nat × (t.denote sys).St} (s : (t.denote sys).St), c.objs[i]? = some x →
      (c.objs.set i (x.1, s)).map Prod.fst = c.objs.map Prod.fst := by
    intro i x s hx
    rw [List.map_set]
    apply List.ext_getElem?
    intro j
    rw [List.getElem?_set]
    split
    · rename_i e
      subst e
      have : i < c.objs.length := (List.getElem?_eq_some_iff.1 hx).1
      rw [if_pos (by simpa using this), List.getElem?_map, hx]; rfl
    · rfl
  have len : ∀ {i : Nat} {x : Nat × (t.denote sys).St}, c.objs[i]? = some x → i < c.objs.length := fun h => (List.getElem?_eq_some_iff.1 h).1
  cases o <;> simp only [Typed.step, typesAfter]
  case copy i => cases hx : c.objs[i]? <;> refine Post.pure ?_ <;> simp [hx]
  case move i => cases hx : c.objs[i]? <;> refine Post.pure ?_ <;> simp [hx]
  case rebind i z =>
    cases hx : c.objs[i]? with
    | none => refine Post.pure ?_; rw [if_neg]; rw [List.length_map]; exact Nat.not_lt.2 (List.getElem?_eq_none_iff.1 hx)
    | some x => refine Post.pure ?_; rw [if_pos (by rw [List.length_map]; exact len hx)]; simp
  case drop i =>
    refine Post.pure ?_
    rw [List.length_map]
    split
    · exact (Linear.map_eraseIdx' _ _ _).symm
    · rfl
  case allocate i n =>
    cases hx : c.objs[i]? with
    | none => exact Post.pure rfl
    | some x =>
      refine Post.bind (R := fun _ => True) (fun _ _ _ _ => trivial) fun r _ => ?_
      split
      · exact Post.pure (same r.2 hx)
      · exact Post.bind (R := fun _ => True) (fun _ _ _ _ => trivial) fun bs _ => Post.pure (same r.2 hx)
  case deallocate i k =>
    cases hx : c.objs[i]? with
    | none => exact Post.pure rfl
    | some x =>
      cases hy : c.live[k]? with
      | none => exact Post.pure rfl
      | some y =>
        simp only
        split
        · exact Post.bind (R := fun _ => True) (fun _ _ _ _ => trivial) fun s _ => Post.pure (same s hx)
        · exact Post.pure rfl
  case write k off v =>
    cases hy : c.live[k]? with
    | none => exact Post.pure rfl
    | some y =>
      simp only
      split
      · exact Post.bind (R := fun _ => True) (fun _ _ _ _ => trivial) fun s _ => Post.pure rfl
      · exact Post.pure rfl

/-- **C79, none is lost.** The typed allocators a program has made are there until it destroys them, with the element types it made them
for; moving from one does not use it up. -/
theorem C79_moved_from_stays (sys : Sys) (t : AllocTy) (b sz : Nat) (ops : List ROp) (w : World) (c : Typed (t.denote sys)) (w' : World)
    (h : playTyped sys t b sz ops w = .ok c w') : c.objs.map Prod.fst = ops.foldl typesAfter [sz] := by
  have run : ∀ (ops : List ROp) (c : Typed (t.denote sys)),
      Post (c.run sys t ops) fun c' => c'.objs.map Prod.fst = ops.foldl typesAfter (c.objs.map Prod.fst) := by
    intro ops
    induction ops with
    | nil => exact fun c => Post.pure rfl
    | cons o os ih =>
      intro c
      refine Post.bind (types_step sys t c o) fun c' h => ?_
      rw [List.foldl_cons, ← h]
      exact ih c'
  obtain ⟨s, w1, _, h2⟩ := bind_ok h
  exact run ops _ w1 c w' h2

/-- what a node-based container does with `type_shared_linear_allocator<T, 256>`: a conversion for its nodes of 24 bytes and one for its
table of 8 bytes each, blocks of all three types, a move of the original, deallocation through a copy -/
def demoRebind : List ROp :=
  [.rebind 0 24, .rebind 1 8, .allocate 0 2, .allocate 1 1, .allocate 2 5, .write 1 23 7, .move 0, .drop 0, .copy 0, .deallocate 3 1, .allocate 0 1]

example : (AllocTy.shared (.linear 256)).WF ∧ (AllocTy.shared (.linear 256)).copyable = true := by decide +kernel
example : RSane (.shared (.linear 256)) 4 demoRebind := by
  intro i n h
  have hz : ∀ z, (z = 4 ∨ ∃ j, ROp.rebind j z ∈ demoRebind) → z = 4 ∨ z = 24 ∨ z = 8 := by
    rintro z (rfl | ⟨j, hj⟩)
    · exact .inl rfl
    · simp [demoRebind] at hj; omega
  have hn : 0 < n ∧ n ≤ 5 := by
    simp [demoRebind] at h; omega
  refine ⟨hn.1, fun z h => ?_⟩
  have := hz z h
  have hm : (AllocTy.shared (.linear 256)).margin ≤ 1000 := by decide
  have : z * n ≤ 24 * 5 := Nat.mul_le_mul (by omega) hn.2
  exact ⟨by omega, by have : W64 = 2 ^ 64 := rfl; omega⟩
example : ((playTyped (demoSys .manual) (.shared (.linear 256)) 4096 4 demoRebind) (demoWorld 16)).test
    (fun c _ => decide (c.live.map (fun a => (a.sz, a.n, a.bytes.length)) = [(24, 1, 24), (8, 5, 40), (4, 2, 8)]) && decide (c.objs.map (·.1) = [24, 8, 4, 24])) = true := by
  decide +kernel

end KTL

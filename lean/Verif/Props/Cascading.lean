import Verif.Props.Routing
import Verif.Spec.Demo

/- C15–C17: `cascading`. -/
namespace KTL
open Cascading

/-! ### C15 -/

/-- What a completed `deallocate(p, n)` of a cascade did (helper; `owns` decides, first node first). -/
theorem cascading_dealloc_cases (sys : Sys) (A : Allocator) (p n : Nat) (prev : Bool) (s s' : List (Node A.St)) (w w' : World)
    (h : Cascading.dealloc sys A p n prev s w = .ok s' w') :
    (s' = s) ∨ ∃ pre nd post st w1, s = pre ++ nd :: post ∧ (∀ x ∈ pre, A.ownsD x.st p = false) ∧ A.ownsD nd.st p = true ∧
      A.dealloc nd.st p n w = .ok st w1 ∧
      s' = if decr nd.cnt = 0 ∧ (prev = true ∨ pre ≠ []) then pre ++ post else pre ++ ⟨nd.addr, st, decr nd.cnt⟩ :: post := by
  induction s generalizing prev s' w w' with
  | nil => cases h; exact .inl rfl
  | cons nd rest ih =>
    unfold Cascading.dealloc at h
    by_cases ho : A.ownsD nd.st p = true
    · simp only [ho, if_true] at h
      obtain ⟨st, w1, h1, h2⟩ := bind_ok h
      refine .inr ⟨[], nd, rest, st, w1, rfl, by simp, ho, h1, ?_⟩
      by_cases hc : decr nd.cnt = 0 ∧ prev = true
      · simp only [hc, and_self, if_true] at h2
        obtain ⟨_, w2, h3, h4⟩ := bind_ok h2
        cases h4
        simp [hc]
      · simp only [hc, if_false] at h2
        cases h2
        simp [hc]
    · simp only [ho] at h
      obtain ⟨rest', w1, h1, h2⟩ := bind_ok h
      cases h2
      rcases ih true rest' w _ h1 with rfl | ⟨pre, nd', post, st, w2, h3, h4, h5, h6, h7⟩
      · exact .inl rfl
      · refine .inr ⟨nd :: pre, nd', post, st, w2, by rw [h3]; rfl, ?_, h5, h6, ?_⟩
        · intro x hx
          rcases List.mem_cons.1 hx with rfl | hx
          · simpa using ho
          · exact h4 x hx
        · rw [h7]
          by_cases hc : decr nd'.cnt = 0 <;> simp [hc]

theorem nodes_held {plat : Plat} {A : Allocator} {fA : Nat → Prop} {hA : Sound A fA}
    {NL : List (Node (A.St × Ledger) × List (Nat × Nat))} {h : Heap} (hN : nodesInv plat (strict_sound hA) NL h) :
    (∀ x ∈ NL, x.1.st.2.held.Perm x.2) ∧ (NL.flatMap Prod.snd).Perm ((NL.map Prod.fst).flatMap fun nd => nd.st.2.held) := by
  induction NL generalizing h with
  | nil => exact ⟨by simp, by simp⟩
  | cons y NL ih =>
    obtain ⟨a1, a2, _, rfl, ⟨b1, b2, _, rfl, hI, _⟩, hr⟩ := hN
    obtain ⟨i1, i2⟩ := ih hr
    refine ⟨fun x hx => ?_, ?_⟩
    · rcases List.mem_cons.1 hx with rfl | hx
      · exact hI.1.1
      · exact i1 x hx
    · simp only [List.map_cons, List.flatMap_cons]
      exact hI.1.1.symm.append i2

/-- A cascade of checked allocators. -/
abbrev checkedCascading (sys : Sys) (A : AllocTy) : Allocator := cascading sys (strict (A.denote sys))

def checkedCascading_sound (sys : Sys) (A : AllocTy) (hwf : (AllocTy.cascading A).WF) :
    Sound (checkedCascading sys A) (Cascading.Fits (A.fits sys.plat)) :=
  cascading_sound sys (strict_sound (A.sound sys hwf.1))
    (by
      have := A.owns_isSome sys
      rw [hwf.2.1] at this
      simp only [strict, Option.isSome_map, this])
    (by
      intro f hf
      have hf' : ((A.denote sys).maxSize.map fun f (s : (A.denote sys).St × Ledger) => f s.1) = some f := hf
      obtain ⟨g, hg, e⟩ := Option.map_eq_some_iff.1 hf'
      subst e
      obtain ⟨m, hm⟩ := AllocTy.maxTotal sys A hwf.2.2.1 g hg
      exact ⟨m, fun s => hm s.1⟩)
    (fun _ => by
      have := hwf.2.2.2
      simp only [Cascading.nodeSize, strict, AllocTy.objSize_eq]; omega)

/-- **C15, every history.** `cascading<A>` behaves exactly as if each instance of `A` checked that it takes
back only blocks that it handed out itself. The counter of each instance is the number of blocks it has out,
and the live blocks are exactly the ones the instances have out. -/
theorem C15_frees_reach_their_instance (sys : Sys) (A : AllocTy) (hwf : (AllocTy.cascading A).WF) (b : Nat) (w : World)
    (hs : Storage w b (AllocTy.cascading A).size) (ops : List Op) (hops : Sane (.cascading A) ops) :
    (play sys (checkedCascading sys A) b ops >>= fun c =>
      pure (c.map (B := cascading sys (A.denote sys)) fun s : List (Node ((A.denote sys).St × Ledger)) =>
        s.map fun nd => ⟨nd.addr, nd.st.1, nd.cnt⟩)) w = play sys (cascading sys (A.denote sys)) b ops w ∧
    ∀ (c : Client (checkedCascading sys A)) w', play sys (checkedCascading sys A) b ops w = .ok c w' →
      (∀ nd : Node ((A.denote sys).St × Ledger), List.Mem nd c.st → nd.cnt = nd.st.2.held.length) ∧
      (c.live.map blk).Perm (List.flatMap (fun nd => nd.st.2.held) c.st) := by
  have hs' : Storage w b (checkedCascading sys A).objSize := hs
  have hops' := hops.fits sys hwf
  refine ⟨checks_hold sys (checkedCascading_sound sys A hwf) (cascading_refines sys (strict_refines _)) b w hs' ops hops', ?_⟩
  intro c w' hrun
  obtain ⟨h, hf, hd, he, hI⟩ := sound_reach sys (checkedCascading_sound sys A hwf) b w hs' ops hops' hrun
  obtain ⟨_, NL, ⟨h1, h2, h3⟩, g1, g2, _, _, hN, _⟩ := hI
  obtain ⟨i1, i2⟩ := nodes_held hN
  rw [← h1]
  refine ⟨?_, h3.trans i2⟩
  intro nd hnd
  replace hnd : nd ∈ NL.map Prod.fst := hnd
  obtain ⟨x, hx, rfl⟩ := List.mem_map.1 hnd
  rw [(h2 x hx).1, (i1 x hx).length_eq]

/-- **C15, one deallocation.** After any history, `deallocate` of a live block changes exactly one instance: the
one that has the block out. That instance takes the block back and its counter drops by one; the instance is
deleted if and only if this was its last block and it is not the first instance. -/
theorem C15_deallocate (sys : Sys) (A : AllocTy) (hwf : (AllocTy.cascading A).WF) (b : Nat) (w : World)
    (hs : Storage w b (AllocTy.cascading A).size) (ops : List Op) (hops : Sane (.cascading A) ops)
    (c : Client (checkedCascading sys A)) (w1 : World) (hrun : play sys (checkedCascading sys A) b ops w = .ok c w1)
    (i : Nat) (p : Nat) (bs : List UInt8) (hi : c.live[i]? = some (p, bs))
    (c' : Client (checkedCascading sys A)) (w2 : World) (hstep : c.step sys (.deallocate i) w1 = .ok c' w2) :
    ∃ pre nd post st, c.st = pre ++ nd :: post ∧ (p, bs.length) ∈ nd.st.2.held ∧
      st.2.held = nd.st.2.held.erase (p, bs.length) ∧
      c'.st = if nd.st.2.held.length = 1 ∧ pre ≠ [] then pre ++ post
        else pre ++ ⟨nd.addr, st, nd.st.2.held.length - 1⟩ :: post := by
  have hA := (C15_frees_reach_their_instance sys A hwf b w hs ops hops).2 c w1 hrun
  have hrun' : play sys (checkedCascading sys A) b (ops ++ [.deallocate i]) w = .ok c' w2 := by
    rw [play_append, bind_of_ok hrun]
    have : c.run sys [.deallocate i] = c.step sys (.deallocate i) := by
      simp only [Client.run]; exact bind_pure _
    rw [this]; exact hstep
  have hops2 : Sane (.cascading A) (ops ++ [.deallocate i]) := by
    intro n hn
    rcases List.mem_append.1 hn with h | h
    · exact hops n h
    · simp at h
  have hB := (C15_frees_reach_their_instance sys A hwf b w hs _ hops2).2 c' w2 hrun'
  simp only [Client.step, hi] at hstep
  obtain ⟨s', w3, e1, e2⟩ := bind_ok hstep
  have e1' : Cascading.dealloc sys (strict (A.denote sys)) p bs.length false c.st w1 = .ok s' w3 := e1
  have hlive : c'.live = c.live.eraseIdx i := by cases e2; rfl
  have hst : c'.st = s' := by cases e2; rfl
  have hlt : i < c.live.length := by
    by_cases h : i < c.live.length
    · exact h
    · rw [List.getElem?_eq_none (by omega)] at hi; cases hi
  rcases cascading_dealloc_cases sys _ p bs.length false c.st s' w1 w3 e1' with e | ⟨pre, nd, post, st, w4, e3, e4, e5, e6, e7⟩
  · exfalso
    have l1 := hA.2.length_eq
    have l2 := hB.2.length_eq
    rw [hst, e] at l2
    rw [← l1, hlive] at l2
    simp only [List.length_map, List.length_eraseIdx_of_lt hlt] at l2
    omega
  · have e6' : (if (p, bs.length) ∈ nd.st.2.held then do
          let s' ← (A.denote sys).dealloc nd.st.1 p bs.length
          pure (s', nd.st.2.gave p bs.length)
        else M.ub : M ((A.denote sys).St × Ledger)) w1 = .ok st w4 := e6
    by_cases hm : (p, bs.length) ∈ nd.st.2.held
    · simp only [hm, if_true] at e6'
      obtain ⟨s2, w5, e8, e9⟩ := bind_ok e6'
      cases e9
      have hcnt := hA.1 nd (by rw [e3]; exact List.mem_append_right _ (List.mem_cons_self ..))
      have hpos : 0 < nd.st.2.held.length := List.length_pos_of_mem hm
      have hdec : decr nd.cnt = nd.st.2.held.length - 1 := by
        unfold decr; rw [hcnt]; split <;> omega
      refine ⟨pre, nd, post, (s2, nd.st.2.gave p bs.length), e3, hm, rfl, ?_⟩
      rw [hst, e7, hdec]
      by_cases h1 : nd.st.2.held.length = 1 ∧ pre ≠ []
      · exact (if_pos ⟨by omega, .inr h1.2⟩).trans (if_pos h1).symm
      · refine (if_neg ?_).trans (if_neg h1).symm
        rintro ⟨a, b | b⟩
        · cases b
        · exact h1 ⟨by omega, b⟩
    · simp only [hm, if_false] at e6'; cases e6'

/-! ### C17 -/

/-- **C17 is false**: `max_size()` of a new `cascading` dereferences a null pointer (`cascading.h:234-240`). -/
theorem C17_false (sys : Sys) (b : Nat) (w : World) :
    ∃ f s, (cascading sys (linear 64)).maxSize = some f ∧ (cascading sys (linear 64)).init b w = .ok s w ∧ f s = none :=
  ⟨_, [], rfl, rfl, rfl⟩

/-- the steps of a cascade's client (helper) -/
theorem cascading_step (sys : Sys) (A : Allocator) (R : List (Node A.St) → Prop) (c : Client (cascading sys A)) (o : Op) (h0 : R c.st)
    (ha : ∀ n, o = .allocate n → Post (Cascading.alloc sys A c.st n) (fun r => R r.2)) (hd : ∀ p n, Post (Cascading.dealloc sys A p n false c.st) R)
    (hr : ∀ g ev p, Post (routeGo A g ev p c.st) R) : Post (c.step sys o) (fun c' => R c'.st) := by
  refine step_state sys (A := cascading sys A) R c o h0 ha hd ?_ ?_
  · intro f hf p
    obtain ⟨g, _, e⟩ := Option.map_eq_some_iff.1 (show (A.construct.map fun c s p => routeGo A c .ctor p s) = some f from hf)
    rw [← e]; exact hr _ _ _
  · intro f hf p
    obtain ⟨g, _, e⟩ := Option.map_eq_some_iff.1 (show (A.destroy.map fun c s p => routeGo A c .dtor p s) = some f from hf)
    rw [← e]; exact hr _ _ _

theorem alloc_nonempty (sys : Sys) (A : Allocator) (s : List (Node A.St)) (n : Nat) :
    Post (Cascading.alloc sys A s n) (fun r => r.2 ≠ []) := by
  refine Post.bind' (fun s => ?_)
  cases s with
  | nil => exact Post.ub
  | cons nd rest =>
    have hfront : Post (allocFront sys A nd rest n) (fun r : Nat × List (Node A.St) => r.2 ≠ []) := by
      refine Post.bind' (fun r => ?_)
      split
      · exact Post.bind' (fun _ => Post.bind' (fun _ => Post.pure (by simp)))
      · exact Post.pure (by simp)
    simp only
    split
    · exact hfront
    · split
      · exact Post.ub
      · split
        · exact Post.pure (List.cons_ne_nil _ _)
        · exact hfront

theorem dealloc_nonempty (sys : Sys) (A : Allocator) (p n : Nat) (s : List (Node A.St)) (h : s ≠ []) :
    Post (Cascading.dealloc sys A p n false s) (fun s' => s' ≠ []) := by
  intro w s' w' e
  rcases cascading_dealloc_cases sys A p n false s s' w w' e with rfl | ⟨pre, nd', post, st, w1, e3, _, _, _, e7⟩
  · exact h
  · rw [e7]
    split
    · rename_i hh
      rcases hh with ⟨_, hh | hh⟩
      · cases hh
      · cases pre
        · exact absurd rfl hh
        · simp
    · simp

theorem routeGo_counts (A : Allocator) (g : A.St → Nat → M A.St) (ev : Nat → Ev) (p : Nat) (s : List (Node A.St)) :
    Post (routeGo A g ev p s) (fun s' => s'.map Node.cnt = s.map Node.cnt) := by
  induction s with
  | nil => exact Post.bind' (fun _ => Post.pure rfl)
  | cons nd rest ih =>
    unfold routeGo
    split
    · exact Post.bind' (fun _ => Post.pure rfl)
    · exact Post.bind ih (fun r hr => Post.pure (by simp [hr]))

theorem cascading_nonempty (sys : Sys) (A : Allocator) (c : Client (cascading sys A)) (h : c.st ≠ []) (o : Op) :
    Post (c.step sys o) (fun c' => c'.st ≠ []) :=
  cascading_step sys A (fun s => s ≠ []) c o h (fun n _ => alloc_nonempty sys A c.st n) (fun p n => dealloc_nonempty sys A p n c.st h)
    (fun g ev p => (routeGo_counts A g ev p c.st).mono (fun s' e hs => h (by
      rw [hs] at e; exact List.map_eq_nil_iff.1 e.symm)))

/-- **C17, what does hold.** After any history in which `allocate` was called at least once, `max_size()` is
defined and equals the `max_size()` of any instance of the underlying allocator.

Missing from the full statement: objects on which `allocate` has never been called (see `C17_false`). -/
theorem C17_after_allocate_partial (sys : Sys) (A : AllocTy) (hwf : (AllocTy.cascading A).WF) (b : Nat) (w : World)
    (o1 o2 : List Op) (n : Nat) (c : Client (cascading sys (A.denote sys))) (w' : World)
    (hrun : play sys (cascading sys (A.denote sys)) b (o1 ++ .allocate n :: o2) w = .ok c w')
    (f : List (Node (A.denote sys).St) → Option Nat) (hf : (cascading sys (A.denote sys)).maxSize = some f) :
    ∃ g m, (A.denote sys).maxSize = some g ∧ (∀ s, g s = some m) ∧ f c.st = some m := by
  have hne : c.st ≠ [] := by
    induction o2 using snocRec generalizing c w' with
    | nil =>
      obtain ⟨c1, w1, r1, r2⟩ := play_snoc_ok hrun
      obtain ⟨r, w2, e1, e2⟩ := bind_ok r2
      have hr : c.st = r.2 := by
        by_cases hz : r.1 = 0
        · rw [if_pos hz] at e2; cases e2; rfl
        · rw [if_neg hz] at e2
          obtain ⟨bs, w3, e3, e4⟩ := bind_ok e2
          cases e4; rfl
      rw [hr]
      have e1' : Cascading.alloc sys (A.denote sys) c1.st n w1 = .ok r w2 := e1
      exact alloc_nonempty sys _ _ _ _ _ _ e1'
    | append_singleton o2 o ih =>
      have e : o1 ++ .allocate n :: (o2 ++ [o]) = (o1 ++ .allocate n :: o2) ++ [o] := by simp
      rw [e] at hrun
      obtain ⟨c1, w1, r1, r2⟩ := play_snoc_ok hrun
      exact cascading_nonempty sys _ c1 (ih c1 w1 r1) o w1 c w' r2
  obtain ⟨g, hg, e⟩ := Option.map_eq_some_iff.1 (show Option.map _ (A.denote sys).maxSize = some f from hf)
  subst e
  obtain ⟨m, hm⟩ := AllocTy.maxTotal sys A hwf.2.2.1 g hg
  refine ⟨g, m, hg, hm, ?_⟩
  cases hc : c.st with
  | nil => exact absurd hc hne
  | cons nd rest => exact hm nd.st

/-! ### C16 -/

/-- An instance with no block out serves every request up to its `max_size()`. -/
def Refills {A : Allocator} {fA : Nat → Prop} (hA : Sound A fA) : Prop :=
  ∃ f m, A.maxSize = some f ∧ (∀ s, f s = some m) ∧
    ∀ b s h n, hA.Inv b s [] h → fA n → n ≤ m → Post (A.alloc s n) (fun r => r.1 ≠ 0)

theorem linear_refills (S : Nat) (h16 : S % 16 = 0) : Refills (linear_sound S) := by
  refine ⟨_, S, rfl, fun _ => rfl, ?_⟩
  intro b s h n hI hf hn
  refine Post.pure ?_
  show (Linear.alloc S s n).1 ≠ 0
  have hok := hI.2.1
  have h1 := hok.fresh rfl
  have h2 := hok.base_ne
  rcases Linear.alloc_ok hok hf with ⟨_, _, _, h3⟩ | ⟨s', h3, _⟩
  · omega
  · rw [h3]; simp only; omega

theorem stack_refills (S : Nat) (h16 : S % 16 = 0) : Refills (stack_sound S) := by
  refine ⟨_, S, rfl, fun _ => rfl, ?_⟩
  intro b s h n hI hf hn
  refine Post.pure ?_
  show (Stack.alloc S s n).1 ≠ 0
  have hI' : (linear_sound S).Inv b s.lin [] h := hI
  have hok := hI'.2.1
  have h1 := hok.fresh rfl
  have h2 := hok.base_ne
  have e : (Linear.alloc S s.lin n).1 = (Stack.alloc S s n).1 := congrArg Prod.fst (Stack.lin_alloc S s n)
  refine fun h0 => absurd (e.trans h0) ?_
  rcases Linear.alloc_ok hok hf with ⟨_, _, _, h3⟩ | ⟨s', h3, _⟩
  · omega
  · rw [h3]; simp only; omega

theorem newNode_fresh (sys : Sys) {A : Allocator} {fA : Nat → Prop} (hA : Sound A fA) (hsz : MallocFits sys.plat (nodeSize A)) :
    Post (newNode sys A) (fun nd => nd.cnt = 0 ∧ ∃ h, hA.Inv nd.addr nd.st [] h) := by
  intro w nd w' e
  have := newNode_spec sys hA hsz w .empty w.heap (Heap.disj_comm (Heap.disj_empty _)) (by simp) rfl
  rw [e] at this
  obtain ⟨⟨h, _, _, h1, h2, h3, _, _, h4, _⟩, _⟩ := this
  exact ⟨h1.1, h2, h4⟩

/-- every node but the first has a block out -/
def TailBusy {α} (s : List (Node α)) : Prop := ∀ nd ∈ s.tail, 0 < nd.cnt

theorem dealloc_tail (sys : Sys) (A : Allocator) (p n : Nat) (s : List (Node A.St)) (h : TailBusy s) :
    Post (Cascading.dealloc sys A p n false s) TailBusy := by
  intro w s' w' e
  rcases cascading_dealloc_cases sys A p n false s s' w w' e with rfl | ⟨pre, nd, post, st, w1, rfl, _, _, _, rfl⟩
  · exact h
  · cases pre with
    | nil => simpa [TailBusy] using h
    | cons x pre =>
      simp only [TailBusy, List.cons_append, List.tail_cons] at h ⊢
      intro y hy
      split at hy
      · refine h y ?_
        simp only [List.tail_cons, List.mem_append, List.mem_cons] at hy ⊢
        rcases hy with hy | hy
        · exact .inl hy
        · exact .inr (.inr hy)
      · rename_i hc
        simp only [List.tail_cons, List.mem_append, List.mem_cons] at hy
        rcases hy with hy | rfl | hy
        · exact h y (by simp [hy])
        · have : decr nd.cnt ≠ 0 := fun e => hc ⟨e, .inr (by simp)⟩
          show 0 < decr nd.cnt
          omega
        · exact h y (by simp [hy])

theorem routeGo_tail (A : Allocator) (g : A.St → Nat → M A.St) (ev : Nat → Ev) (p : Nat) (s : List (Node A.St)) (h : TailBusy s) :
    Post (routeGo A g ev p s) TailBusy := by
  refine (routeGo_counts A g ev p s).mono (fun s' e => ?_)
  have e' : s'.tail.map Node.cnt = s.tail.map Node.cnt := by
    rw [List.map_tail, List.map_tail, e]
  intro y hy
  have : y.cnt ∈ s.tail.map Node.cnt := by rw [← e']; exact List.mem_map_of_mem hy
  obtain ⟨z, hz, hzy⟩ := List.mem_map.1 this
  have := h z hz
  omega

theorem alloc_tail (sys : Sys) {A : Allocator} {fA : Nat → Prop} (hA : Sound A fA) (hR : Refills hA)
    (hsz : MallocFits sys.plat (nodeSize A)) (s : List (Node A.St)) (h : TailBusy s) (n : Nat) (hn : fA n)
    (hfr : ∀ nd rest, s = nd :: rest → nd.cnt = 0 → ∃ b h, hA.Inv b nd.st [] h) :
    Post (Cascading.alloc sys A s n) (fun r => TailBusy r.2) := by
  obtain ⟨f, m, hfm, hm, href⟩ := hR
  refine Post.bind (R := fun s' => TailBusy s' ∧ ∀ nd rest, s' = nd :: rest → nd.cnt = 0 → ∃ b h, hA.Inv b nd.st [] h) ?_ ?_
  · unfold ensure
    cases s with
    | nil =>
      refine Post.bind (newNode_fresh sys hA hsz) (fun nd hnd => Post.pure ⟨by simp [TailBusy], ?_⟩)
      intro nd' rest e _
      cases e
      exact ⟨_, hnd.2⟩
    | cons nd rest => exact Post.pure ⟨h, hfr⟩
  · rintro s' ⟨h, hfr⟩
    cases s' with
    | nil => exact Post.ub
    | cons nd rest =>
      simp only [hfm, hm]
      split
      · exact Post.pure h
      · rename_i hle
        refine Post.bind (R := fun r : Nat × A.St => nd.cnt = 0 → r.1 ≠ 0) ?_ (fun r hr => ?_)
        · by_cases hc : nd.cnt = 0
          · obtain ⟨b, g, hI⟩ := hfr nd rest rfl hc
            exact (href b nd.st g n hI hn (by omega)).mono (fun r hr _ => hr)
          · exact fun _ _ _ _ h => absurd h hc
        · by_cases hz : r.1 = 0
          · rw [if_pos hz]
            refine Post.bind' (fun nd2 => Post.bind' (fun q => Post.pure ?_))
            intro y hy
            simp only [List.tail_cons, List.mem_cons] at hy
            rcases hy with rfl | hy
            · simp only
              exact Nat.pos_of_ne_zero (fun hc => hr hc hz)
            · exact h y hy
          · rw [if_neg hz]
            exact Post.pure h

theorem cascading_node_bound (sys : Sys) {A : Allocator} {fA : Nat → Prop} (hA : Sound A fA) (hR : Refills hA)
    (ho : A.owns.isSome = true) (hmax : MaxTotal A) (hsz : MallocFits sys.plat (nodeSize A))
    (b : Nat) (w : World) (hs : Storage w b 16) (ops : List Op) (hops : Requests (Cascading.Fits fA) ops)
    (c : Client (cascading sys A)) (w' : World) (hrun : play sys (cascading sys A) b ops w = .ok c w') :
    List.length c.st ≤ c.live.length + 1 := by
  have hnodes : ∀ ops, Requests (Cascading.Fits fA) ops → ∀ (c : Client (cascading sys A)) w', play sys (cascading sys A) b ops w = .ok c w' →
      ∃ NL, (NL.map Prod.fst = c.st ∧ NodesOk NL ∧ (c.live.map blk).Perm (NL.flatMap Prod.snd)) ∧ ∃ h, nodesInv sys.plat hA NL h := by
    intro ops hops c w' hrun
    obtain ⟨h, hf, hd, he, hI⟩ := sound_reach sys (cascading_sound sys hA ho hmax hsz) b w hs ops hops hrun
    obtain ⟨_, NL, ⟨g1, g2, g3⟩, k1, k2, _, _, hN, _⟩ := hI
    exact ⟨NL, ⟨g1, g2, g3⟩, k1, hN⟩
  have htail : TailBusy (α := A.St) c.st := by
    induction ops using snocRec generalizing c w' with
    | nil =>
      obtain ⟨s, w1, e1, e2⟩ := bind_ok hrun
      cases e1; cases e2
      intro nd hnd; cases hnd
    | append_singleton ops o ih =>
      obtain ⟨c1, w1, r1, r2⟩ := play_snoc_ok hrun
      have hops1 : Requests (Cascading.Fits fA) ops := fun n hn => hops n (List.mem_append_left _ hn)
      have ih1 := ih hops1 c1 w1 r1
      obtain ⟨NL, ⟨g1, g2, g3⟩, k, hN⟩ := hnodes ops hops1 c1 w1 r1
      refine cascading_step sys A TailBusy c1 o ih1 ?_ (fun p n => dealloc_tail sys A p n c1.st ih1)
        (fun g ev p => routeGo_tail A g ev p c1.st ih1) w1 c w' r2
      intro n hn
      refine alloc_tail sys hA hR hsz c1.st ih1 n ?_ ?_
      · exact (hops n (by rw [hn]; simp)).2.2
      · intro nd rest e hc
        rw [← g1] at e
        cases NL with
        | nil => cases e
        | cons x NL =>
          obtain ⟨a1, a2, _, rfl, ⟨b1, b2, _, rfl, hI, _⟩, hr⟩ := hN
          have e' : x.1 = nd := (List.cons.inj e).1
          have := (g2 x (by simp)).1
          rw [e', hc] at this
          rw [e', List.length_eq_zero_iff.1 this.symm] at hI
          exact ⟨_, _, hI⟩
  obtain ⟨NL, ⟨g1, g2, g3⟩, hN⟩ := hnodes ops hops c w' hrun
  have hlen := g3.length_eq
  rw [← g1] at htail ⊢
  rw [List.length_map] at hlen ⊢
  rw [hlen]
  cases NL with
  | nil => simp
  | cons x NL =>
    have : NL.length ≤ (NL.flatMap Prod.snd).length := by
      have hpos : ∀ y ∈ NL, 0 < y.2.length := by
        intro y hy
        have := htail y.1 (by simp only [List.map_cons, List.tail_cons]; exact List.mem_map_of_mem hy)
        rw [(g2 y (List.mem_cons_of_mem _ hy)).1] at this
        exact this
      clear htail g2 g3 g1 hlen hN
      induction NL with
      | nil => simp
      | cons y NL ih =>
        have h1 := ih (fun z hz => hpos z (List.mem_cons_of_mem _ hz))
        have h2 := hpos y (by simp)
        simp only [List.flatMap_cons, List.length_append, List.length_cons]
        omega
    simp only [List.flatMap_cons, List.length_append, List.length_cons]
    omega

/-- **C16 is false**: with `cascading<linear_allocator<20>>`, whose `max_size()` of 20 can never be served, two
requests of 20 bytes are refused and leave three instances behind, with no block out. -/
theorem C16_false : ((play (demoSys .direct) (cascading (demoSys .direct) (linear 20)) 4096 [.allocate 20, .allocate 20]
    (demoWorld 16)).test fun c _ => decide (List.length c.st = 3 ∧ c.live.length = 0)) = true := by
  decide +kernel

/-- **C16, what does hold.** `cascading` over `linear_allocator<S>` or `stack_allocator<S>` with `S` a multiple of
16: after any history the number of instances is at most one more than the number of live blocks.

Missing from the full statement: underlying allocators that, though empty, can refuse a request within their
`max_size()`; see `C16_false`. -/
theorem C16_instances_bounded_partial (sys : Sys) (S : Nat) (h16 : S % 16 = 0) (hS : S + 48 < W64) (b : Nat) (w : World)
    (hs : Storage w b 16) (ops : List Op) (hops : Requests (fun n => 0 < n ∧ n + S + 15 < W64) ops) :
    (∀ (c : Client (cascading sys (linear S))) w', play sys (cascading sys (linear S)) b ops w = .ok c w' →
      List.length c.st ≤ c.live.length + 1) ∧
    (∀ (c : Client (cascading sys (stackAlloc S))) w', play sys (cascading sys (stackAlloc S)) b ops w = .ok c w' →
      List.length c.st ≤ c.live.length + 1) := by
  have hops' : Requests (Cascading.Fits (fun n => Linear.Fits S n)) ops := by
    intro n hn
    have := hops n hn
    refine ⟨this.1, by omega, ?_⟩
    show n + 15 + S < W64
    omega
  have hsz : MallocFits sys.plat (nodeSize (linear S)) := fun _ => by
    show Linear.objSize S + 16 + _ < W64
    unfold Linear.objSize
    omega
  constructor
  · intro c w' hrun
    exact cascading_node_bound sys (linear_sound S) (linear_refills S h16) rfl (fun f hf => ⟨S, fun s => by cases hf; rfl⟩)
      hsz b w hs ops hops' c w' hrun
  · intro c w' hrun
    exact cascading_node_bound sys (stack_sound S) (stack_refills S h16) rfl (fun f hf => ⟨S, fun s => by cases hf; rfl⟩)
      hsz b w hs ops hops' c w' hrun

/-! ### Non-vacuity -/

example : (AllocTy.cascading (.linear 64)).WF := by decide
example : Storage (demoWorld 16) 4096 (AllocTy.cascading (.linear 64)).size := demoStorage 16 (by decide)
/-- three instances, after frees two -/
example : ((play (demoSys .direct) (checkedCascading (demoSys .direct) (.linear 64)) 4096
    [.allocate 40, .allocate 40, .allocate 40, .deallocate 1] (demoWorld 16)).test fun c _ =>
      decide (List.length c.st = 2 ∧ c.live.length = 2)) = true := by decide +kernel
example : ((play (demoSys .direct) (cascading (demoSys .direct) (linear 64)) 4096
    [.allocate 40, .allocate 40, .allocate 40, .deallocate 0] (demoWorld 16)).test fun c _ =>
      decide (List.length c.st = 3 ∧ c.live.length = 2)) = true := by decide +kernel

end KTL

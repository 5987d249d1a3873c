import Verif.Spec.Strict

/- Specification device for free lists: a stack of the blocks that were freed and not yet reused, with the
check that `allocate` hands out exactly the top of the stack (while there is one) and nothing for sizes
out of range. -/
namespace KTL

/-- `freelist<Min, Max, A>` with the check. -/
def lifoFreelist (Min Max : Nat) (A : Allocator) : Allocator where
  St := Freelist.St A.St × List Nat
  objSize := (freelist Min Max A).objSize
  init b := do
    let s ← (freelist Min Max A).init b
    pure (s, [])
  alloc s n := do
    let r ← (freelist Min Max A).alloc s.1 n
    if Min < n ∧ n ≤ Max then
      match s.2 with
      | [] => pure (r.1, (r.2, []))
      | top :: stk => if r.1 = top then pure (r.1, (r.2, stk)) else M.ub
    else if r.1 = 0 then pure (r.1, (r.2, s.2)) else M.ub
  dealloc s p n := do
    let s' ← (freelist Min Max A).dealloc s.1 p n
    pure (s', p :: s.2)
  owns := (freelist Min Max A).owns.map fun f s p => f s.1 p
  maxSize := (freelist Min Max A).maxSize.map fun f s => f s.1
  construct := (freelist Min Max A).construct.map fun c s p => do
    let a ← c s.1 p
    pure (a, s.2)
  destroy := (freelist Min Max A).destroy.map fun c s p => do
    let a ← c s.1 p
    pure (a, s.2)
  fini s := (freelist Min Max A).fini s.1

theorem lifo_refines (Min Max : Nat) (A : Allocator) : Refines (lifoFreelist Min Max A) (freelist Min Max A) Prod.fst where
  size := rfl
  init b := Below.rfl' (by simp only [lifoFreelist, bind_assoc, pure_bind]; exact bind_pure _)
  alloc s n := by
    have e : (freelist Min Max A).alloc s.1 n = ((freelist Min Max A).alloc s.1 n >>= pure) := (bind_pure _).symm
    show Below _ _ ((freelist Min Max A).alloc s.1 n)
    rw [e]
    refine Below.bind (Below.refl _) (fun r => ?_)
    split
    · split
      · exact Below.pure _ _ _ rfl
      · split
        · exact Below.pure _ _ _ rfl
        · exact Below.ub
    · split
      · exact Below.pure _ _ _ rfl
      · exact Below.ub
  dealloc s p n := Below.rfl' (by simp only [lifoFreelist, bind_assoc, pure_bind]; exact bind_pure _)
  owns := rfl
  maxSize := rfl
  construct := belowOpt_map _
  destroy := belowOpt_map _
  fini s := Below.refl _

open Freelist in
/-- The checked free list satisfies the contract: no check ever fails. -/
def lifo_sound (Min Max : Nat) {A : Allocator} {fA : Nat → Prop} (hA : Sound A fA)
    (hM8 : 8 ≤ Max) (hMW : Max < W64) : Sound (lifoFreelist Min Max A) (Freelist.Fits Min Max fA) where
  Inv b s L := fun h => (∀ c ∈ L, Min < c.2 ∧ c.2 ≤ Max ∧ Freelist.Fits Min Max fA c.2) ∧
    ∃ R, R.map Prod.fst = s.2 ∧ FInv Max hA b s.1 L R h
  objAlign := (freelist_sound Min Max hA hM8 hMW).objAlign
  perm := by
    rintro b s L L' h hp ⟨h1, R, h2, h3, h4⟩
    refine ⟨fun c hc => h1 c (hp.mem_iff.2 hc), R, h2, h3, ?_⟩
    rw [← slack_perm hp]
    exact star_mono_left (fun _ h => hA.perm ((hp.map _).append_right _) h) h h4
  init_spec := by
    intro b h1 h2 h3
    simp only [lifoFreelist, freelist] at h3 ⊢
    rw [bytes_split, bind_assoc]
    refine Triple.bind ((hA.init_spec b h1 h2 (by omega)).frame _) (fun a => ?_)
    rw [pure_bind]
    refine Triple.pure _ (fun h hh => ⟨by simp, [], rfl, ⟨rfl, by simp⟩, ?_⟩)
    simpa [slack, blocksV] using hh
  alloc_spec := by
    intro b s L n hf hn
    refine Triple.and (fun hL => Triple.exists (fun R => Triple.and (fun hR => ?_)))
    refine Triple.bind (Freelist.alloc_spec Min Max hA hMW b s.1 L R n hf) (fun r => ?_)
    rw [← hR]
    have hL' : (n > Min ∧ n ≤ Max) → ∀ p, ∀ c ∈ (p, n) :: L, Min < c.2 ∧ c.2 ≤ Max ∧ Freelist.Fits Min Max fA c.2 := by
      intro hr p c hc
      rcases List.mem_cons.1 hc with rfl | hc
      · exact ⟨hr.1, hr.2, hf⟩
      · exact hL c hc
    by_cases hr : Min < n ∧ n ≤ Max
    · simp only [hr, and_self, if_true]
      cases R with
      | nil =>
        simp only [List.map_nil]
        refine Triple.pure _ ?_
        rintro h (⟨h1, _, h2⟩ | ⟨hr', h1, _, h2⟩)
        · exact .inl ⟨h1, hL, [], rfl, h2⟩
        · refine .inr ⟨h1, ?_⟩
          rw [star_and]; refine ⟨hL' hr _, ?_⟩
          rw [star_exists]; refine ⟨[], ?_⟩
          rw [star_and]; exact ⟨rfl, h2⟩
      | cons c R =>
        simp only [List.map_cons]
        refine Triple.have (p := r.1 = c.1) ?_ (fun he => ?_)
        · rintro h (⟨_, h1 | h1, _⟩ | ⟨_, _, h1, _⟩)
          · cases h1
          · exact absurd hr (by simpa using h1)
          · exact h1 c R rfl
        · simp only [he, if_true]
          refine Triple.pure _ ?_
          rintro h (⟨_, h1 | h1, _⟩ | ⟨hr', h1, _, h2⟩)
          · cases h1
          · simp only [not_true] at h1
          · refine .inr ⟨h1, ?_⟩
            rw [star_and]; refine ⟨hL' hr _, ?_⟩
            rw [star_exists]; refine ⟨R, ?_⟩
            rw [star_and]; exact ⟨rfl, h2⟩
    · simp only [hr, if_false]
      refine Triple.have (p := r.1 = 0) ?_ (fun he => ?_)
      · rintro h (⟨h1, _⟩ | ⟨h1, _⟩)
        · exact h1
        · exact h1.elim
      · simp only [he, if_true]
        refine Triple.pure _ ?_
        rintro h (⟨_, _, h2⟩ | ⟨h1, _⟩)
        · exact .inl ⟨rfl, hL, R, rfl, h2⟩
        · exact h1.elim
  dealloc_local := by
    intro b s p bs R k _
    rw [star_and]
    refine apart_and (fun hL => ?_)
    rw [star_exists]
    refine apart_exists (fun C => ?_)
    rw [star_and]
    refine apart_and (fun hC => ?_)
    obtain ⟨hmin, hmax, hfit⟩ := hL (p, bs.length) (by simp)
    refine Triple.bind ((Freelist.dealloc_spec Min Max hA hM8 b s.1 p bs R C hmin hmax).pre fun h hh => hh.2) (fun s' => ?_)
    refine Triple.exists (fun x => Triple.pure _ (fun h hh => ?_))
    exact ⟨fun c hc => hL c (List.mem_cons_of_mem _ hc), (p, x) :: C, by rw [List.map_cons, hC], hh⟩
  live_good := fun ⟨h0, R, _, h1⟩ hm => (freelist_sound Min Max hA hM8 hMW).live_good ⟨h0, R, h1⟩ hm
  live_max := by
    rintro f hf b s L h p n ⟨h0, R, _, h1⟩ hm m hfm
    have hf1 : (freelist Min Max A).maxSize.map (fun f (s : Freelist.St A.St × List Nat) => f s.1) = some f := hf
    obtain ⟨f', hf', rfl⟩ := Option.map_eq_some_iff.1 hf1
    exact (freelist_sound Min Max hA hM8 hMW).live_max f' hf' ⟨h0, R, h1⟩ hm m hfm
  owns_sound := by
    rintro f hf b s L h x ⟨h0, R, _, h1⟩ hx ho
    have hf1 : (freelist Min Max A).owns.map (fun f (s : Freelist.St A.St × List Nat) p => f s.1 p) = some f := hf
    obtain ⟨f', hf', rfl⟩ := Option.map_eq_some_iff.1 hf1
    exact (freelist_sound Min Max hA hM8 hMW).owns_sound f' hf' ⟨h0, R, h1⟩ hx ho
  owns_complete := by
    rintro f hf b s L h x ⟨h0, R, _, h1⟩ hx
    have hf1 : (freelist Min Max A).owns.map (fun f (s : Freelist.St A.St × List Nat) p => f s.1 p) = some f := hf
    obtain ⟨f', hf', rfl⟩ := Option.map_eq_some_iff.1 hf1
    exact (freelist_sound Min Max hA hM8 hMW).owns_complete f' hf' ⟨h0, R, h1⟩ hx
  construct_spec := by
    intro c hc b s L p
    have hc1 : (A.construct.map fun c (s : Freelist.St A.St) p => do let a ← c s.a p; pure (⟨a, s.free⟩ : Freelist.St A.St)).map
      (fun c (s : Freelist.St A.St × List Nat) p => do let a ← c s.1 p; pure (a, s.2)) = some c := hc
    obtain ⟨c1, hc1', rfl⟩ := Option.map_eq_some_iff.1 hc1
    obtain ⟨c', hc', rfl⟩ := Option.map_eq_some_iff.1 hc1'
    refine Triple.and (fun hL => Triple.exists (fun R => Triple.and (fun hR => Triple.and (fun hl => ?_))))
    simp only [bind_assoc, pure_bind]
    refine Triple.bind ((hA.construct_spec c' hc' b s.1.a _ p).frame _) (fun a => Triple.pure _ (fun h hh => ?_))
    exact ⟨hL, R, hR, hl, hh⟩
  destroy_spec := by
    intro c hc b s L p
    have hc1 : (A.destroy.map fun c (s : Freelist.St A.St) p => do let a ← c s.a p; pure (⟨a, s.free⟩ : Freelist.St A.St)).map
      (fun c (s : Freelist.St A.St × List Nat) p => do let a ← c s.1 p; pure (a, s.2)) = some c := hc
    obtain ⟨c1, hc1', rfl⟩ := Option.map_eq_some_iff.1 hc1
    obtain ⟨c', hc', rfl⟩ := Option.map_eq_some_iff.1 hc1'
    refine Triple.and (fun hL => Triple.exists (fun R => Triple.and (fun hR => Triple.and (fun hl => ?_))))
    simp only [bind_assoc, pure_bind]
    refine Triple.bind ((hA.destroy_spec c' hc' b s.1.a _ p).frame _) (fun a => Triple.pure _ (fun h hh => ?_))
    exact ⟨hL, R, hR, hl, hh⟩
  fini_spec := by
    intro b s
    refine ((freelist_sound Min Max hA hM8 hMW).fini_spec b s.1).pre ?_
    rintro h ⟨h0, R, _, h1⟩
    exact ⟨h0, R, h1⟩

end KTL

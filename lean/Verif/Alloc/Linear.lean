import Verif.Alloc.Basic

/- `linear_allocator<Size>` and the alignment helper. -/
namespace KTL

/-- `utility/alignment.h:10-17` `align_to_architecture`, with `ALIGNMENT = 16`. -/
def alignPad (n : Nat) : Nat :=
  let align := n &&& 15
  if align ≠ 0 then 16 - align else 0

theorem alignPad_eq (n : Nat) : alignPad n = (16 - n % 16) % 16 := by
  have : n &&& 15 = n % 16 := Nat.and_two_pow_sub_one_eq_mod n 4
  simp only [alignPad, this]; split <;> omega

namespace Linear

/-- Fields of `linear_allocator` (`allocators/linear_allocator.h:140-143`): address of `m_Data`,
`m_Free`, `m_ObjectCount`. -/
structure St where
  base : Nat
  free : Nat
  count : Nat
  deriving DecidableEq, Repr

/-- `allocators/linear_allocator.h:21-24` constructor. -/
def init (a : Nat) : St := ⟨a, a, 0⟩

/-- `allocators/linear_allocator.h:75-88` `allocate`, all arithmetic modulo 2^64. -/
def alloc (Size : Nat) (s : St) (n : Nat) : Nat × St :=
  let total := addW n (alignPad n)
  if addW (subW s.free s.base) total > Size then (0, s)
  else (s.free, ⟨s.base, addW s.free total, addW s.count total⟩)

/-- `allocators/linear_allocator.h:96-110` `deallocate`. -/
def dealloc (s : St) (p n : Nat) : St :=
  let total := addW n (alignPad n)
  let free' := if subW s.free total = p then subW s.free total else s.free
  let count' := subW s.count total
  ⟨s.base, if count' = 0 then s.base else free', count'⟩

/-- `allocators/linear_allocator.h:128-137` `owns`. -/
def owns (Size : Nat) (s : St) (p : Nat) : Bool :=
  decide (s.base ≤ p) && decide (p < addW s.base Size)

/-- Storage of the object: the buffer rounded up to the alignment, `m_Free`, `m_ObjectCount`.
`allocators/linear_allocator.h:141-143`. -/
def objSize (Size : Nat) : Nat := Size + (16 - Size % 16) % 16 + 16

end Linear

/-- `linear_allocator<Size>` (`allocators/linear_allocator.h`). -/
def linear (Size : Nat) : Allocator where
  St := Linear.St
  objSize := Linear.objSize Size
  init a := pure (Linear.init a)
  alloc s n := pure (Linear.alloc Size s n)
  dealloc s p n := pure (Linear.dealloc s p n)
  owns := some (Linear.owns Size)
  -- `allocators/linear_allocator.h:118`
  maxSize := some (fun _ => some Size)
  construct := none
  destroy := none
  fini _ := pure ()

namespace Linear

/-- sum of the rounded sizes of the live blocks. Proof helper, not code. -/
def total : List (Nat × Nat) → Nat
  | [] => 0
  | b :: L => b.2 + (16 - b.2 % 16) % 16 + total L

theorem total_perm {L L'} (h : L.Perm L') : total L = total L' := by
  induction h with
  | nil => rfl
  | cons x _ ih => simp only [total, ih]
  | swap x y l => simp only [total]; omega
  | trans _ _ h1 h2 => rw [h1, h2]

theorem total_zero {L} (h : total L = 0) : ∀ b ∈ L, b.2 = 0 := by
  induction L with
  | nil => simp
  | cons c L ih =>
    simp only [total] at h
    intro b hb
    rcases List.mem_cons.1 hb with rfl | hb
    · omega
    · exact ih (by omega) b hb

/-- pure part of the invariant. Proof helper, not code. -/
structure Ok (Size base : Nat) (s : St) (L : List (Nat × Nat)) : Prop where
  base_eq : s.base = base
  base_ne : base ≠ 0
  base_al : base % 16 = 0
  base_end : base + objSize Size < W64
  free_lo : base ≤ s.free
  free_hi : s.free ≤ base + Size
  free_al : s.free % 16 = 0
  count : s.count = total L
  count_le : base + total L ≤ s.free
  blocks : ∀ b ∈ L, b.1 % 16 = 0 ∧ base ≤ b.1 ∧ b.1 + b.2 ≤ base + Size ∧
    (b.2 ≠ 0 → b.1 + (b.2 + (16 - b.2 % 16) % 16) ≤ s.free)
  fresh : total L = 0 → s.free = base

/-- the requests for which no address computation wraps around. Specification, not code. -/
def Fits (Size n : Nat) : Prop := n + 15 + Size < W64

/-- Proof helper, not code. -/
def Inv (Size base : Nat) (s : St) (L : List (Nat × Nat)) : HProp :=
  fun h => Ok Size base s L ∧
    bytesS (fun x => (base ≤ x ∧ x < base + objSize Size) ∧ ¬ inLive L x) h


theorem alloc_ok {Size base s L n} (hs : Ok Size base s L) (hf : Fits Size n) :
    (∃ r, alloc Size s n = (0, s) ∧ r = 0 ∧ Size < (s.free - base) + (n + (16 - n % 16) % 16)) ∨
    (∃ s', alloc Size s n = (s.free, s') ∧ Ok Size base s' ((s.free, n) :: L) ∧ Good s.free n ∧
      s'.free = s.free + (n + (16 - n % 16) % 16) ∧
      s.free + (n + (16 - n % 16) % 16) ≤ base + Size) := by
  obtain ⟨h1, h2, h3, h4, h5, h6, h7, h8, h9, h10, h11'⟩ := hs
  unfold Fits at hf
  unfold objSize at h4
  have e1 : subW s.free s.base = s.free - base := by unfold subW; omega
  have e2 : addW n (alignPad n) = n + (16 - n % 16) % 16 := by
    rw [alignPad_eq]; unfold addW; omega
  simp only [alloc, e1, e2]
  have e3 : addW (s.free - base) (n + (16 - n % 16) % 16) = (s.free - base) + (n + (16 - n % 16) % 16) := by
    unfold addW; omega
  simp only [e3]
  by_cases hc : s.free - base + (n + (16 - n % 16) % 16) > Size
  · left; exact ⟨0, by simp [hc], rfl, hc⟩
  · right
    simp only [hc, if_false]
    have e4 : addW s.free (n + (16 - n % 16) % 16) = s.free + (n + (16 - n % 16) % 16) := by
      unfold addW; omega
    have e5 : addW s.count (n + (16 - n % 16) % 16) = s.count + (n + (16 - n % 16) % 16) := by
      unfold addW; omega
    refine ⟨_, rfl, ⟨h1, h2, h3, h4, ?_, ?_, ?_, ?_, ?_, ?_, ?_⟩, ⟨by omega, h7, by omega⟩, e4, by omega⟩
    · simp only [e4]; omega
    · simp only [e4]; omega
    · simp only [e4]; omega
    · simp only [e5, total]; omega
    · simp only [e4, total]; omega
    · simp only [e4]
      intro b hb
      rcases List.mem_cons.1 hb with rfl | hb
      · simp only; omega
      · have := h10 b hb; omega
    · simp only [e4, total]; omega

theorem dealloc_ok {Size base s L p n} (hs : Ok Size base s ((p, n) :: L))
    (hd : ∀ x, p ≤ x → x < p + n → ¬ inLive L x) : Ok Size base (dealloc s p n) L := by
  obtain ⟨h1, h2, h3, h4, h5, h6, h7, h8, h9, h10, h11'⟩ := hs
  unfold objSize at h4
  have hp := h10 (p, n) (by simp)
  simp only [total] at h8 h9 hp
  have e2 : addW n (alignPad n) = n + (16 - n % 16) % 16 := by
    rw [alignPad_eq]; unfold addW; omega
  have e3 : subW s.count (n + (16 - n % 16) % 16) = total L := by unfold subW; omega
  have e4 : subW s.free (n + (16 - n % 16) % 16) = s.free - (n + (16 - n % 16) % 16) := by
    unfold subW; omega
  simp only [dealloc, e2, e3, e4]
  by_cases hz : total L = 0
  · simp only [hz, if_true]
    have hz' := total_zero hz
    refine ⟨h1, h2, h3, h4, by simp only; omega, by simp only; omega, by simp only; omega, by simp [hz],
      by simp only; omega, ?_, fun _ => h1⟩
    intro b hb
    have := h10 b (List.mem_cons_of_mem _ hb)
    have := hz' b hb
    omega
  · simp only [hz, if_false]
    by_cases hc : s.free - (n + (16 - n % 16) % 16) = p
    · simp only [hc, if_true]
      have hb' : ∀ b ∈ L, b.2 ≠ 0 → b.1 + (b.2 + (16 - b.2 % 16) % 16) ≤ p := by
        intro b hb hb2
        have h11 := h10 b (List.mem_cons_of_mem _ hb)
        by_cases hn : n = 0
        · subst hn; omega
        · by_cases hlt : b.1 + b.2 ≤ p
          · omega
          · exfalso
            by_cases hge : p ≤ b.1
            · exact hd b.1 hge (by omega) ⟨b, hb, by omega⟩
            · exact hd p (by omega) (by omega) ⟨b, hb, by omega⟩
      refine ⟨h1, h2, h3, h4, by simp only; omega, by simp only; omega, by simp only; omega, rfl,
        by simp only; omega, ?_, fun h => absurd h hz⟩
      intro b hb
      have h11 := h10 b (List.mem_cons_of_mem _ hb)
      exact ⟨h11.1, h11.2.1, h11.2.2.1, hb' b hb⟩
    · simp only [hc, if_false]
      refine ⟨h1, h2, h3, h4, by simp only; omega, by simp only; omega, by simp only; omega, rfl,
        by simp only; omega, ?_, fun h => absurd h hz⟩
      intro b hb
      exact h10 b (List.mem_cons_of_mem _ hb)

end Linear
open Linear

/-- `linear_allocator` satisfies the contract. Proof helper, not code. -/
def linear_sound (Size : Nat) : Sound (linear Size) (fun n => Linear.Fits Size n) where
  Inv base s L := fun h => (∀ b ∈ L, Linear.Fits Size b.2) ∧ Linear.Inv Size base s L h
  objAlign := by simp only [linear, Linear.objSize]; omega
  perm := by
    rintro b s L L' h hp ⟨h0, ⟨h1, h2, h3, h4, h5, h6, h7, h8, h9, h10, h11⟩, hb⟩
    refine ⟨fun b hb => h0 b (hp.mem_iff.2 hb), ⟨h1, h2, h3, h4, h5, h6, h7, by rw [h8, total_perm hp],
      by rw [← total_perm hp]; exact h9, fun b hb => h10 b (hp.mem_iff.2 hb),
      fun h => h11 (by rw [total_perm hp]; exact h)⟩, ?_⟩
    rw [bytesS_congr (fun x => by rw [← inLive_perm hp])]
    exact hb
  init_spec := by
    intro b hb ha he
    refine Triple.pure _ (fun h hh => ⟨by simp, ⟨rfl, hb, ha, he, ?_, ?_, ?_, rfl, ?_, by simp, fun _ => rfl⟩, ?_⟩)
    · simp [Linear.init]
    · simp [Linear.init]
    · simpa [Linear.init] using ha
    · simp [Linear.init, total]
    · rw [bytesS_congr (T := fun x => b ≤ x ∧ x < b + Linear.objSize Size)]
      · exact hh
      · intro x; simp [not_inLive_nil]
  alloc_spec := by
    intro b s L n hf hn
    refine Triple.pure _ (fun h hh => ?_)
    obtain ⟨h0, hok, hb⟩ := hh
    rcases Linear.alloc_ok hok hf with ⟨r, hr, _, _⟩ | ⟨s', hr, hok', hg, hfr, hle⟩
    · left; rw [hr]; exact ⟨rfl, h0, hok, hb⟩
    · right
      rw [hr]
      refine ⟨hg, ?_⟩
      have hbl := hok.blocks
      have hd : ∀ x, s.free ≤ x ∧ x < s.free + n → ¬ inLive L x := by
        rintro x hx ⟨c, hc, hcx⟩
        have := hbl c hc
        omega
      have e : (bytesS (fun x => (b ≤ x ∧ x < b + Linear.objSize Size) ∧ ¬ inLive ((s.free, n) :: L) x) ∗
          bytes s.free n) h := by
        rw [bytes, bytesS_union]
        · rw [bytesS_congr (T := fun x => (b ≤ x ∧ x < b + Linear.objSize Size) ∧ ¬ inLive L x)]
          · exact hb
          · intro x
            rw [inLive_cons]
            have := hd x
            have := hok.free_lo
            unfold Linear.objSize
            constructor
            · rintro (⟨h1, h2⟩ | h1)
              · exact ⟨h1, fun h3 => h2 (Or.inr h3)⟩
              · exact ⟨by omega, hd x h1⟩
            · rintro ⟨h1, h2⟩
              by_cases h3 : s.free ≤ x ∧ x < s.free + n
              · exact Or.inr h3
              · exact Or.inl ⟨h1, fun h4 => h4.elim h3 h2⟩
        · intro x h1 h2
          exact h1.2 (inLive_cons.2 (Or.inl h2))
      have h0' : ∀ c ∈ (s.free, n) :: L, Linear.Fits Size c.2 := by
        intro c hc
        rcases List.mem_cons.1 hc with rfl | hc
        · exact hf
        · exact h0 c hc
      exact star_mono_left (fun h hh => ⟨h0', hok', hh⟩) h e
  dealloc_local := by
    intro b s p bs R k hR
    refine Triple.pure _ (fun h hh => ?_)
    obtain ⟨hk, h1, h2, hd, rfl, ⟨h0, hok, hb⟩, hp⟩ := hh
    have hdd : ∀ x, p ≤ x → x < p + bs.length → ¬ inLive (R.map blk) x := by
      intro x hx1 hx2 hl
      exact disj_isSome (Heap.disj_add_left.1 hk).2 (bytesV_isSome hp ⟨hx1, hx2⟩) (blocksV_isSome hR hl)
    refine ⟨fun c hc => h0 c (List.mem_cons_of_mem _ hc), Linear.dealloc_ok hok hdd, ?_⟩
    have : (bytesS (fun x => (b ≤ x ∧ x < b + Linear.objSize Size) ∧ ¬ inLive ((p, bs.length) :: R.map blk) x) ∗
        bytes p bs.length) (h1.add h2) := ⟨h1, h2, hd, rfl, hb, bytesV_length hp⟩
    rw [bytes, bytesS_union] at this
    · rw [bytesS_congr]
      · exact this
      · intro x
        rw [inLive_cons]
        have hpb := hok.blocks (p, bs.length) (by simp)
        simp only at hpb
        unfold Linear.objSize
        constructor
        · rintro ⟨h1, h2⟩
          by_cases h3 : p ≤ x ∧ x < p + bs.length
          · exact Or.inr h3
          · exact Or.inl ⟨h1, fun h4 => h4.elim h3 h2⟩
        · rintro (⟨h1, h2⟩ | h1)
          · exact ⟨h1, fun h3 => h2 (Or.inr h3)⟩
          · exact ⟨by omega, hdd x h1.1 h1.2⟩
    · intro x h1 h2
      exact h1.2 (inLive_cons.2 (Or.inl h2))
  live_good := by
    rintro b s L h p n ⟨h0, hok, hb⟩ hm
    have h1 := hok.blocks _ hm
    have h2 := hok.base_ne
    have h3 := hok.base_end
    unfold Linear.objSize at h3
    exact ⟨⟨by omega, h1.1, by omega⟩, h0 _ hm⟩
  live_max := by
    rintro f hf b s L h p n ⟨h0, hok, hb⟩ hm m hfm
    cases hf; cases hfm
    have h1 := hok.blocks _ hm
    simp only at h1; omega
  owns_sound := by
    rintro f hf b s L h x ⟨h0, hok, hb⟩ hx ho
    cases hf
    simp only [Linear.owns, Bool.and_eq_true, decide_eq_true_eq] at ho
    have h3 := hok.base_end
    have h1 := hok.base_eq
    unfold Linear.objSize at h3
    have e : addW s.base Size = b + Size := by unfold addW; omega
    rw [e] at ho
    by_cases hl : inLive L x
    · exact Or.inr hl
    · left
      refine (hb.2 x).2 ⟨?_, hl⟩
      unfold Linear.objSize; omega
  owns_complete := by
    rintro f hf b s L h x ⟨h0, hok, hb⟩ ⟨c, hc, hx⟩
    cases hf
    have h3 := hok.base_end
    have h1 := hok.base_eq
    unfold Linear.objSize at h3
    have e : addW s.base Size = b + Size := by unfold addW; omega
    have := hok.blocks c hc
    simp only [Linear.owns, Bool.and_eq_true, decide_eq_true_eq, e]
    omega
  construct_spec := by intro c hc; simp [linear] at hc
  destroy_spec := by intro c hc; simp [linear] at hc
  fini_spec := by
    intro b s
    refine Triple.pure _ (fun h hh => ?_)
    obtain ⟨_, _, hb⟩ := hh
    rw [bytesS_congr (T := fun x => b ≤ x ∧ x < b + Linear.objSize Size)] at hb
    · exact hb
    · intro x; simp [not_inLive_nil]

end KTL

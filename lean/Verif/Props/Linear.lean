import Verif.Props.Memory
import Verif.Base.Post

/- C07–C09, C19: `linear_allocator` (and `stack_allocator`, which C10 shows to be the same machine). -/
namespace KTL

theorem Client.run_append (sys : Sys) {A : Allocator} (c : Client A) (o1 o2 : List Op) :
    c.run sys (o1 ++ o2) = (c.run sys o1 >>= fun c' => c'.run sys o2) := by
  induction o1 generalizing c with
  | nil => rfl
  | cons o os ih =>
    simp only [List.cons_append, Client.run, bind_assoc]
    congr 1; funext c'; exact ih c'

theorem play_append (sys : Sys) (A : Allocator) (b : Nat) (o1 o2 : List Op) :
    play sys A b (o1 ++ o2) = (play sys A b o1 >>= fun c' => c'.run sys o2) := by
  simp only [play, Client.run_append, bind_assoc]

theorem play_snoc_ok {sys : Sys} {A : Allocator} {b : Nat} {ops : List Op} {o : Op} {w : World} {c : Client A} {w' : World}
    (h : play sys A b (ops ++ [o]) w = .ok c w') :
    ∃ c1 w1, play sys A b ops w = .ok c1 w1 ∧ c1.step sys o w1 = .ok c w' := by
  rw [play_append] at h
  obtain ⟨c1, w1, h1, h2⟩ := bind_ok h
  refine ⟨c1, w1, h1, ?_⟩
  have : c1.run sys [o] = c1.step sys o := by
    simp only [Client.run]
    exact bind_pure _
  rw [this] at h2; exact h2

/-! ### The ideal bump allocator (specification)

Unbounded natural numbers, no counters, no addresses: only how many bytes of the buffer are in use and
which pieces of it (offset, size) are live. -/

/-- the least multiple of 16 not below `n` -/
def ceil16 (n : Nat) : Nat := 16 * ((n + 15) / 16)

structure Ideal where
  used : Nat := 0
  live : List (Nat × Nat) := []
  refused : List Nat := []
  deriving DecidableEq, Repr

/-- One step. A freed piece is reclaimed if it is the last one below `used`; everything is reclaimed
when nothing (but empty pieces) is live. -/
def Ideal.step (Size : Nat) (s : Ideal) : Op → Ideal
  | .allocate n =>
    if s.used + ceil16 n ≤ Size then ⟨s.used + ceil16 n, (s.used, n) :: s.live, s.refused⟩
    else ⟨s.used, s.live, n :: s.refused⟩
  | .deallocate i =>
    match s.live[i]? with
    | none => s
    | some (o, n) =>
      let live' := s.live.eraseIdx i
      ⟨if ∀ x ∈ live', x.2 = 0 then 0 else if o + ceil16 n = s.used then o else s.used, live', s.refused⟩
  | _ => s

def Ideal.run (Size : Nat) (ops : List Op) : Ideal := ops.foldl (Ideal.step Size) {}

/-! ### The implementation refines it -/

namespace Linear

theorem ceil16_eq (n : Nat) : n + (16 - n % 16) % 16 = ceil16 n := by unfold ceil16; omega

theorem total_eq_zero {L : List (Nat × Nat)} : total L = 0 ↔ ∀ x ∈ L, x.2 = 0 := by
  constructor
  · exact total_zero
  · intro h
    induction L with
    | nil => rfl
    | cons c L ih =>
      have h1 := h c (by simp)
      have h2 := ih (fun x hx => h x (List.mem_cons_of_mem _ hx))
      simp only [total]; omega

theorem map_eraseIdx' {α β} (f : α → β) (l : List α) (i : Nat) : (l.map f).eraseIdx i = (l.eraseIdx i).map f := by
  induction l generalizing i with
  | nil => rfl
  | cons a l ih => cases i with
    | zero => rfl
    | succ i => simp only [List.map_cons, List.eraseIdx_cons_succ, ih]

/-- The concrete client's state `c` represents the ideal state `s`. -/
structure Sim (b : Nat) (s : Ideal) (c : Client (linear Size)) : Prop where
  base : Linear.St.base c.st = b
  free : Linear.St.free c.st = b + s.used
  count : Linear.St.count c.st = total s.live
  live : c.live.map blk = s.live.map (fun x => (b + x.1, x.2))
  refused : c.refused = s.refused

theorem readBytes_length (n p : Nat) : Post (M.readBytes p n) (fun bs => bs.length = n) := by
  induction n generalizing p with
  | zero => exact Post.pure rfl
  | succ n ih => exact Post.bind' (fun x => Post.bind (ih _) (fun bs h => Post.pure (by simp [h])))

theorem total_shift (b : Nat) (L : List (Nat × Nat)) : total (L.map (fun x => (b + x.1, x.2))) = total L := by
  induction L with
  | nil => rfl
  | cons c L ih => simp only [List.map_cons, total, ih]

theorem sim_step {Size b : Nat} (sys : Sys) {s : Ideal} {c : Client (linear Size)} (hs : Sim b s c)
    (hok : Ok Size b c.st (c.live.map blk)) (o : Op) (ho : ∀ n, o = .allocate n → Fits Size n) :
    Post (c.step sys o) (fun c' => Sim b (s.step Size o) c') := by
  obtain ⟨s1, s2, s3, s4, s5⟩ := hs
  have h2 := hok.base_ne
  have h3 := hok.base_end
  have h4 := hok.free_hi
  have h5 := hok.count_le
  have h6 := hok.count
  rw [s4, total_shift] at h5 h6
  unfold objSize at h3
  cases o with
  | allocate n =>
    have hf := ho n rfl
    have e1 := ceil16_eq n
    refine Post.bind (R := fun r => r = Linear.alloc Size c.st n) (Post.pure rfl) ?_
    rintro r rfl
    rcases alloc_ok hok hf with ⟨_, ha, rfl, hlt⟩ | ⟨s', ha, hok', hg, hfr, hle⟩
    · rw [ha]
      simp only [if_true]
      refine Post.pure ?_
      have : ¬ (s.used + ceil16 n ≤ Size) := by omega
      simp only [Ideal.step, this, if_false]
      exact ⟨s1, s2, s3, s4, by simp [s5]⟩
    · rw [ha]
      simp only [hg.1, if_false]
      have hc' := hok'.count
      have hb' := hok'.base_eq
      simp only [total] at hc'
      rw [s4, total_shift] at hc'
      have : s.used + ceil16 n ≤ Size := by omega
      simp only [Ideal.step, this, if_true]
      refine Post.bind (readBytes_length n _) (fun bs hbs => Post.pure ?_)
      refine ⟨by simp only [hb'], by simp only [hfr]; omega, by simp only [hc', total], ?_, s5⟩
      simp only [List.map_cons, s4, blk, hbs, s2]
  | deallocate i =>
    simp only [Client.step]
    cases hi : c.live[i]? with
    | none =>
      have : s.live[i]? = none := by
        have := congrArg (fun l => l[i]?) s4
        simp only [List.getElem?_map, hi, Option.map_none] at this
        cases h : s.live[i]? with
        | none => rfl
        | some y => rw [h] at this; cases this
      simp only [Ideal.step, this]
      exact Post.pure ⟨s1, s2, s3, s4, s5⟩
    | some x =>
      obtain ⟨y, hy, hxy⟩ : ∃ y, s.live[i]? = some y ∧ blk x = (b + y.1, y.2) := by
        have := congrArg (fun l => l[i]?) s4
        simp only [List.getElem?_map, hi, Option.map_some] at this
        cases h : s.live[i]? with
        | none => rw [h] at this; cases this
        | some y => rw [h] at this; exact ⟨y, rfl, by simpa using this⟩
      simp only [blk, Prod.mk.injEq] at hxy
      obtain ⟨hx1, hx2⟩ := hxy
      obtain ⟨o, n⟩ := y
      simp only at hx1 hx2
      simp only [Ideal.step, hy]
      refine Post.bind (R := fun r => r = Linear.dealloc c.st x.1 x.2.length) (Post.pure rfl) ?_
      rintro r rfl
      refine Post.pure ?_
      have e1 := ceil16_eq n
      have hp := total_perm (perm_eraseIdx hy)
      simp only [total] at hp
      have hbl := hok.blocks (blk x) (List.mem_map_of_mem (List.mem_of_getElem? hi))
      simp only [blk, hx1, hx2] at hbl
      have e2 : addW n (alignPad n) = ceil16 n := by
        rw [alignPad_eq]; unfold addW; omega
      have e3 : subW (Linear.St.count c.st) (ceil16 n) = total (s.live.eraseIdx i) := by unfold subW; omega
      have e4 : subW (b + s.used) (ceil16 n) = b + s.used - ceil16 n := by unfold subW; omega
      refine ⟨s1, ?_, ?_, ?_, s5⟩
      · simp only [Linear.dealloc, hx1, hx2, e2, e3, e4, s1, s2, total_eq_zero]
        by_cases hz : ∀ x ∈ s.live.eraseIdx i, x.2 = 0
        · rw [if_pos hz, if_pos hz]; omega
        · rw [if_neg hz, if_neg hz]
          by_cases hc : o + ceil16 n = s.used
          · rw [if_pos hc, if_pos (by omega)]; omega
          · rw [if_neg hc, if_neg (by omega)]
      · simp only [Linear.dealloc, hx1, hx2, e2, e3]
      · rw [← map_eraseIdx', ← map_eraseIdx', s4]
  | write i off v =>
    simp only [Client.step, Ideal.step]
    cases hi : c.live[i]? with
    | none => exact Post.pure ⟨s1, s2, s3, s4, s5⟩
    | some x =>
      simp only
      split
      · refine Post.bind' (fun _ => Post.pure ⟨s1, s2, s3, ?_, s5⟩)
        rw [← s4, List.map_set]
        apply List.ext_getElem?
        intro j
        by_cases hj : i = j
        · subst hj
          rw [List.getElem?_map, hi, List.getElem?_set_self (by simp; exact (List.getElem?_eq_some_iff.1 hi).1)]
          simp [blk]
        · rw [List.getElem?_set_ne hj]
      · exact Post.pure ⟨s1, s2, s3, s4, s5⟩
  | construct i off =>
    simp only [Client.step, Ideal.step]
    cases hi : c.live[i]? with
    | none => exact Post.pure ⟨s1, s2, s3, s4, s5⟩
    | some x => exact Post.bind (R := fun s => s = c.st) (Post.pure rfl) (fun a ha => by subst ha; exact Post.pure ⟨s1, s2, s3, s4, s5⟩)
  | destroy i off =>
    simp only [Client.step, Ideal.step]
    cases hi : c.live[i]? with
    | none => exact Post.pure ⟨s1, s2, s3, s4, s5⟩
    | some x => exact Post.bind (R := fun s => s = c.st) (Post.pure rfl) (fun a ha => by subst ha; exact Post.pure ⟨s1, s2, s3, s4, s5⟩)
  | foreign n =>
    simp only [Client.step, Ideal.step]
    refine Post.bind' (fun p => ?_)
    split
    · exact Post.pure ⟨s1, s2, s3, s4, s5⟩
    · exact Post.bind' (fun _ => Post.pure ⟨s1, s2, s3, s4, s5⟩)

/-- what is known after any history on a `linear_allocator` -/
theorem reach (Size : Nat) (sys : Sys) (b : Nat) (w : World) (hs : Storage w b (objSize Size)) (ops : List Op)
    (hops : Requests (Fits Size) ops) (c : Client (linear Size)) (w' : World)
    (hrun : play sys (linear Size) b ops w = .ok c w') :
    Ok Size b c.st (c.live.map blk) ∧ Sim b (Ideal.run Size ops) c := by
  have ok : ∀ (ops : List Op) (c : Client (linear Size)) (w' : World), Requests (Fits Size) ops →
      play sys (linear Size) b ops w = .ok c w' → Ok Size b c.st (c.live.map blk) := by
    intro ops c w' hops hrun
    have := history sys (.linear Size) trivial b w hs ops hops
    simp only [AllocTy.denote] at this
    rw [hrun] at this
    obtain ⟨h, hf, hd, he, ⟨h1, h2, hd1, rfl, hI, _⟩, _⟩ := this
    exact hI.2.1
  refine ⟨ok ops c w' hops hrun, ?_⟩
  induction ops using snocRec generalizing c w' with
  | nil =>
    obtain ⟨s, w1, h1, h2⟩ := bind_ok hrun
    cases h1; cases h2
    exact ⟨rfl, rfl, rfl, rfl, rfl⟩
  | append_singleton ops o ih =>
    obtain ⟨c1, w1, h1, h2⟩ := play_snoc_ok hrun
    have hops' : Requests (Fits Size) ops := fun n hn => hops n (List.mem_append_left _ hn)
    have hsim := ih hops' c1 w1 h1
    have := sim_step sys hsim (ok ops c1 w1 hops' h1) o (fun n hn => (hops n (by simp [hn])).2) w1 c w' h2
    simpa [Ideal.run, List.foldl_append] using this

end Linear

open Linear

/-- Requests so small that no size computation of a `linear_allocator<Size>` wraps around 2^64. Unlike
in `Sane`, empty requests are allowed. -/
def SmallRequests (Size : Nat) (ops : List Op) : Prop := Requests (fun n => n + 15 + Size < 2 ^ 64) ops

/-- **C08, refinement form.** Every history on a `linear_allocator` gives the same live blocks (at the
same offsets) and the same refusals as on the ideal bump allocator. -/
theorem C08_linear_is_ideal (Size : Nat) (sys : Sys) (b : Nat) (w : World)
    (hs : Storage w b (AllocTy.linear Size).size) (ops : List Op) (hops : SmallRequests Size ops)
    (c : Client (linear Size)) (w' : World) (hrun : play sys (linear Size) b ops w = .ok c w') :
    c.live.map (fun a => (a.1, a.2.length)) = (Ideal.run Size ops).live.map (fun x => (b + x.1, x.2)) ∧
    c.refused = (Ideal.run Size ops).refused := by
  obtain ⟨_, h⟩ := reach Size sys b w hs ops hops c w' hrun
  exact ⟨h.live, h.refused⟩

/-- **C08.** After any history, `allocate(n)` succeeds iff `n` rounded up to a multiple of 16 fits
behind the bytes in use (as counted by the ideal bump allocator); the block starts exactly there; a
failed allocation changes nothing. -/
theorem C08_succeeds_iff_fits (Size : Nat) (sys : Sys) (b : Nat) (w : World)
    (hs : Storage w b (AllocTy.linear Size).size) (ops : List Op) (hops : SmallRequests Size ops)
    (c : Client (linear Size)) (w' : World) (hrun : play sys (linear Size) b ops w = .ok c w')
    (n : Nat) (hn : n + 15 + Size < 2 ^ 64) :
    ∃ p s', (linear Size).alloc c.st n w' = .ok (p, s') w' ∧
      (p ≠ 0 ↔ (Ideal.run Size ops).used + ceil16 n ≤ Size) ∧
      (p ≠ 0 → p = b + (Ideal.run Size ops).used) ∧ (p = 0 → s' = c.st) := by
  obtain ⟨hok, h⟩ := reach Size sys b w hs ops hops c w' hrun
  have e1 := ceil16_eq n
  have h2 := h.free
  have h3 := hok.base_ne
  refine ⟨_, _, rfl, ?_⟩
  rcases alloc_ok hok hn with ⟨_, ha, rfl, hlt⟩ | ⟨s', ha, hok', hg, hfr, hle⟩
  · show ((alloc Size c.st n).1 ≠ 0 ↔ _) ∧ ((alloc Size c.st n).1 ≠ 0 → (alloc Size c.st n).1 = _) ∧
      ((alloc Size c.st n).1 = 0 → (alloc Size c.st n).2 = c.st)
    rw [ha]
    refine ⟨⟨fun h => absurd rfl h, fun h => ?_⟩, fun h => absurd rfl h, fun _ => rfl⟩
    exfalso; omega
  · show ((alloc Size c.st n).1 ≠ 0 ↔ _) ∧ ((alloc Size c.st n).1 ≠ 0 → (alloc Size c.st n).1 = _) ∧
      ((alloc Size c.st n).1 = 0 → (alloc Size c.st n).2 = c.st)
    rw [ha]
    refine ⟨⟨fun _ => by omega, fun _ => hg.1⟩, fun _ => h2, fun h => absurd h hg.1⟩

/-- **C07 (partial).** For every request that stays `Size + 15` below 2^64, `allocate(n)` returns null
or a pointer to at least `n` bytes inside the buffer. For larger `n` this is false, see
`C07_huge_request_succeeds`. -/
theorem C07_allocate_inside_buffer_partial (Size : Nat) (sys : Sys) (b : Nat) (w : World)
    (hs : Storage w b (AllocTy.linear Size).size) (ops : List Op) (hops : SmallRequests Size ops)
    (c : Client (linear Size)) (w' : World) (hrun : play sys (linear Size) b ops w = .ok c w')
    (n : Nat) (hn : n + 15 + Size < 2 ^ 64) :
    ∃ p s', (linear Size).alloc c.st n w' = .ok (p, s') w' ∧ (p = 0 ∨ (b ≤ p ∧ p + n ≤ b + Size)) := by
  obtain ⟨hok, h⟩ := reach Size sys b w hs ops hops c w' hrun
  have h2 := h.free
  refine ⟨_, _, rfl, ?_⟩
  rcases alloc_ok hok hn with ⟨_, ha, rfl, hlt⟩ | ⟨s', ha, hok', hg, hfr, hle⟩
  · left; show (alloc Size c.st n).1 = 0; rw [ha]
  · right
    show b ≤ (alloc Size c.st n).1 ∧ (alloc Size c.st n).1 + n ≤ b + Size
    rw [ha]
    exact ⟨by simp only; omega, by simp only; omega⟩

/-- **C07, negation.** `linear_allocator<64>` answers a request for 2^64 - 1 bytes with a non-null
pointer: the rounded size wraps to 0. -/
theorem C07_huge_request_succeeds :
    ∃ s', (linear 64).alloc (Linear.init 4096) (2 ^ 64 - 1) (demoWorld 80) = .ok (4096, s') (demoWorld 80) :=
  ⟨_, rfl⟩

/-- **C07, negation.** The sum with the bytes in use can wrap as well: with one 16-byte block live, a
request for 2^64 - 16 bytes succeeds. -/
theorem C07_huge_request_succeeds' : ((play (demoSys .direct) (linear 64) 4096 [.allocate 16] >>= fun c =>
    (linear 64).alloc c.st (2 ^ 64 - 16) : M _) (demoWorld 80)).test (fun r _ => decide (r.1 = 4112)) = true := by
  decide +kernel

/-! ### C09 -/

/-- LIFO-disciplined histories: every allocation is freed before anything allocated earlier is. -/
inductive Lifo : List Op → Prop
  | nil : Lifo []
  | block (n body rest) : Lifo body → Lifo rest → Lifo (.allocate n :: body ++ .deallocate 0 :: rest)

theorem ideal_used_zero {Size : Nat} {ops : List Op} (h0 : Linear.total (Ideal.run Size ops).live = 0) :
    (Ideal.run Size ops).used = 0 := by
  induction ops using snocRec with
  | nil => rfl
  | append_singleton ops o ih =>
    simp only [Ideal.run, List.foldl_append, List.foldl_cons, List.foldl_nil] at h0 ⊢ ih
    generalize List.foldl (Ideal.step Size) {} ops = s at h0 ih ⊢
    cases o with
    | allocate n =>
      simp only [Ideal.step] at h0 ⊢
      split
      · rename_i h
        simp only [h, if_true, total, ceil16_eq] at h0
        have := ih (by omega)
        simp only; omega
      · rename_i h
        simp only [h, if_false] at h0
        exact ih h0
    | deallocate i =>
      simp only [Ideal.step] at h0 ⊢
      split
      · rename_i h
        simp only [h] at h0; exact ih h0
      · rename_i o n h
        simp only [h] at h0
        rw [total_eq_zero] at h0
        simp only [if_pos h0]
    | _ => simp only [Ideal.step] at h0 ⊢; exact ih h0

theorem linear_state_eq {Size b : Nat} {s : Ideal} {c c' : Client (linear Size)} (h : Sim b s c) (h' : Sim b s c') :
    c.st = c'.st := by
  have e1 := h.base.trans h'.base.symm
  have e2 := h.free.trans h'.free.symm
  have e3 := h.count.trans h'.count.symm
  have : ∀ x y : Linear.St, x.base = y.base → x.free = y.free → x.count = y.count → x = y := by
    rintro ⟨a, b, c⟩ ⟨d, e, f⟩ h1 h2 h3
    simp only at h1 h2 h3
    subst h1; subst h2; subst h3; rfl
  exact this _ _ e1 e2 e3

theorem ideal_lifo (Size : Nat) {l : List Op} (hl : Lifo l) (s : Ideal)
    (hz : (∀ x ∈ s.live, x.2 = 0) → s.used = 0)
    (hr : (l.foldl (Ideal.step Size) s).refused = s.refused) : l.foldl (Ideal.step Size) s = s := by
  have mono : ∀ (l : List Op) (s : Ideal), s.refused.length ≤ (l.foldl (Ideal.step Size) s).refused.length := by
    intro l
    induction l with
    | nil => intro s; exact Nat.le_refl _
    | cons o l ih =>
      intro s
      refine Nat.le_trans ?_ (ih _)
      cases o with
      | allocate n => simp only [Ideal.step]; split <;> simp
      | deallocate i => simp only [Ideal.step]; split <;> simp
      | _ => exact Nat.le_refl _
  have keep : ∀ (l : List Op) (s : Ideal), (l.foldl (Ideal.step Size) s).refused.length = s.refused.length →
      (l.foldl (Ideal.step Size) s).refused = s.refused := by
    intro l
    induction l with
    | nil => intro s _; rfl
    | cons o l ih =>
      intro s hs
      have h1 := mono l (s.step Size o)
      have h2 := mono [o] s
      simp only [List.foldl_cons, List.foldl_nil] at hs h2 ⊢
      rw [ih _ (by omega)]
      cases o with
      | allocate n =>
        simp only [Ideal.step] at hs h1 h2 ⊢
        split
        · rfl
        · rename_i hc
          simp only [hc, if_false, List.length_cons] at hs h1
          omega
      | deallocate i => simp only [Ideal.step]; split <;> rfl
      | _ => rfl
  induction hl generalizing s with
  | nil => rfl
  | block n body rest hb hrst ihb ihr =>
    simp only [List.cons_append, List.foldl_cons, List.foldl_append] at hr ⊢
    have m1 := mono rest (Ideal.step Size (List.foldl (Ideal.step Size) (Ideal.step Size s (Op.allocate n)) body) (.deallocate 0))
    have m2 := mono [.deallocate 0] (List.foldl (Ideal.step Size) (Ideal.step Size s (Op.allocate n)) body)
    have m3 := mono body (Ideal.step Size s (Op.allocate n))
    have m4 := mono [.allocate n] s
    simp only [List.foldl_cons, List.foldl_nil] at m2 m4
    rw [hr] at m1
    have e3 := keep body (Ideal.step Size s (Op.allocate n)) (by omega)
    have hfit : s.used + ceil16 n ≤ Size := by
      apply Classical.byContradiction
      intro hc
      simp only [Ideal.step, hc, if_false, List.length_cons] at m1 m2 m3
      omega
    have e1 : Ideal.step Size s (Op.allocate n) = ⟨s.used + ceil16 n, (s.used, n) :: s.live, s.refused⟩ := by
      simp only [Ideal.step, hfit, if_true]
    rw [e1] at hr e3 ⊢
    have e2 : List.foldl (Ideal.step Size) ⟨s.used + ceil16 n, (s.used, n) :: s.live, s.refused⟩ body =
        ⟨s.used + ceil16 n, (s.used, n) :: s.live, s.refused⟩ := by
      refine ihb _ (fun h => ?_) e3
      have h1 := h (s.used, n) (by simp)
      have h2 := hz (fun x hx => h x (by simp [hx]))
      simp only at h1
      subst h1
      simp only [h2, ceil16]
    rw [e2] at hr ⊢
    have e4 : Ideal.step Size ⟨s.used + ceil16 n, (s.used, n) :: s.live, s.refused⟩ (.deallocate 0) = s := by
      simp only [Ideal.step, List.getElem?_cons_zero, List.eraseIdx_cons_zero]
      obtain ⟨u, lv, rf⟩ := s
      simp only at hz ⊢
      by_cases h : ∀ x ∈ lv, x.2 = 0
      · rw [if_pos h, hz h]
      · rw [if_neg h, if_pos trivial]
    rw [e4] at hr ⊢
    exact ihr s hz hr

/-- **C09, LIFO.** A LIFO-disciplined continuation of any history (with no refused request) leaves the
allocator in exactly the state it found: all bytes are available again and the next allocation
returns the same address as before. -/
theorem C09_lifo_restores_state (Size : Nat) (sys : Sys) (b : Nat) (w : World)
    (hs : Storage w b (AllocTy.linear Size).size) (ops more : List Op) (hops : SmallRequests Size (ops ++ more))
    (hl : Lifo more) (c c' : Client (linear Size)) (w' w'' : World)
    (hrun : play sys (linear Size) b ops w = .ok c w') (hrun' : c.run sys more w' = .ok c' w'')
    (hr : c'.refused = c.refused) : c'.st = c.st := by
  have hops1 : Requests (Fits Size) ops := fun n hn => hops n (List.mem_append_left _ hn)
  have hrun2 : play sys (linear Size) b (ops ++ more) w = .ok c' w'' := by
    rw [play_append, bind_of_ok hrun]; exact hrun'
  obtain ⟨_, h1⟩ := reach Size sys b w hs ops hops1 c w' hrun
  obtain ⟨_, h2⟩ := reach Size sys b w hs (ops ++ more) hops c' w'' hrun2
  have hz : (∀ x ∈ (Ideal.run Size ops).live, x.2 = 0) → (Ideal.run Size ops).used = 0 := fun h =>
    ideal_used_zero (total_eq_zero.2 h)
  have e : Ideal.run Size (ops ++ more) = more.foldl (Ideal.step Size) (Ideal.run Size ops) := by
    simp only [Ideal.run, List.foldl_append]
  rw [e] at h2
  have hr2 : (more.foldl (Ideal.step Size) (Ideal.run Size ops)).refused = (Ideal.run Size ops).refused := by
    rw [← h1.refused, ← h2.refused, hr]
  rw [ideal_lifo Size hl _ hz hr2] at h2
  exact linear_state_eq h2 h1

/-- **C09, reset.** After any history that leaves no live block — whatever the order of the frees — the
allocator is in the state of a new one: the whole buffer is available again. -/
theorem C09_reset_when_empty (Size : Nat) (sys : Sys) (b : Nat) (w : World)
    (hs : Storage w b (AllocTy.linear Size).size) (ops : List Op) (hops : SmallRequests Size ops)
    (c : Client (linear Size)) (w' : World) (hrun : play sys (linear Size) b ops w = .ok c w')
    (hempty : c.live = []) : (linear Size).init b w' = .ok c.st w' := by
  obtain ⟨hok, h⟩ := reach Size sys b w hs ops hops c w' hrun
  have hl : (Ideal.run Size ops).live = [] := by
    have := h.live
    rw [hempty] at this
    simpa using this.symm
  have hu := ideal_used_zero (by rw [hl]; rfl)
  have h1 := h.base
  have h2 := h.free
  have h3 := h.count
  rw [hu] at h2
  rw [hl] at h3
  show Res.ok (Linear.init b) w' = _
  congr 1
  have : ∀ x : Linear.St, x.base = b → x.free = b + 0 → x.count = 0 → Linear.init b = x := by
    rintro ⟨a, b, c⟩ h1 h2 h3
    simp only at h1 h2 h3
    subst h1; subst h2; subst h3; rfl
  exact this _ h1 h2 h3

/-- Limits of reclamation: after freeing the middle one of three blocks and then the last and the first
of them, with one other block live, only the last one's bytes have been reclaimed. -/
theorem C09_out_of_order_not_reclaimed : ((play (demoSys .direct) (linear 128) 4096
    [.allocate 16, .allocate 16, .allocate 16, .allocate 16, .deallocate 1, .deallocate 0, .deallocate 0])
      (demoWorld 256)).test (fun c _ => decide (c.live.map blk = [(4096, 16)]) && decide (Linear.St.free c.st = 4144)) = true := by
  decide +kernel

/-! ### C19 -/

/-- **C19 (partial).** If the buffer size is a multiple of 16, a new `linear_allocator` serves every
request up to `max_size()`. -/
theorem C19_max_size_served_partial (Size : Nat) (h16 : Size % 16 = 0) (sys : Sys) (b : Nat) (w : World)
    (hs : Storage w b (AllocTy.linear Size).size) (n : Nat) (hn : n ≤ Size) (hsz : 2 * Size + 15 < 2 ^ 64) :
    ((linear Size).maxSize = some fun _ => some Size) ∧
    ∃ s0 s', (linear Size).init b w = .ok s0 w ∧ (linear Size).alloc s0 n w = .ok (b, s') w := by
  refine ⟨rfl, ?_⟩
  obtain ⟨p, s', h1, h2, h3, h4⟩ := C08_succeeds_iff_fits Size sys b w hs [] (fun n hn => by simp at hn)
    { st := Linear.init b, live := [], foreign := [] } w rfl n (by omega)
  have hp : p ≠ 0 := h2.2 (by simp only [Ideal.run, List.foldl_nil]; unfold ceil16; omega)
  have := h3 hp
  simp only [Ideal.run, List.foldl_nil, Nat.add_zero] at this
  subst this
  exact ⟨_, s', rfl, h1⟩

/-- **C19, negation.** `linear_allocator<20>` has `max_size() == 20` but refuses a request for 20 bytes
even when it is new. -/
theorem C19_max_size_refused : ∃ s0, (linear 20).init 4096 (demoWorld 64) = .ok s0 (demoWorld 64) ∧
    (linear 20).maxSize = some (fun _ => some 20) ∧
    (linear 20).alloc s0 20 (demoWorld 64) = .ok (0, s0) (demoWorld 64) := ⟨_, rfl, rfl, rfl⟩

/-! ### The hypotheses can be met -/

example : Storage (demoWorld 256) 4096 (AllocTy.linear 128).size := by
  have := demoStorage 256 (by decide)
  exact ⟨this.1, this.2.1, by decide, fun x h1 h2 => this.2.2.2 x h1 (by simp only [AllocTy.size] at h2; omega)⟩
example : SmallRequests 128 [.allocate 16, .allocate 0, .deallocate 0, .allocate 100] := by
  intro n hn
  simp at hn
  rcases hn with rfl | rfl | rfl <;> decide
example : Lifo [.allocate 10, .allocate 20, .deallocate 0, .allocate 0, .deallocate 0, .deallocate 0] :=
  .block 10 [.allocate 20, .deallocate 0, .allocate 0, .deallocate 0] []
    (.block 20 [] [.allocate 0, .deallocate 0] .nil (.block 0 [] [] .nil .nil)) .nil
/-- a LIFO continuation after a block is live, and a refusal -/
example : ((play (demoSys .direct) (linear 128) 4096 [.allocate 16, .allocate 10, .allocate 20, .deallocate 0, .deallocate 0, .allocate 200])
      (demoWorld 256)).test (fun c _ => decide (c.live.map blk = [(4096, 16)]) && decide (Linear.St.free c.st = 4112) &&
        decide (c.refused = [200])) = true := by decide +kernel

end KTL

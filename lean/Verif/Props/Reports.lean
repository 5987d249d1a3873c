import Verif.Props.Memory
import Verif.Base.Post

/- C18, C20–C23: max_size as an upper bound, and the reports of `overflow`. -/
namespace KTL

/-- **C18.** If `max_size()` answers `m`, no live block is larger than `m` (every successful
`allocate(n)` puts a block of size `n` in `c.live`). -/
theorem C18_max_size_upper_bound (sys : Sys) (t : AllocTy) (hwf : t.WF) (b : Nat) (w : World)
    (hs : Storage w b t.size) (ops : List Op) (hops : Sane t ops) (c : Client (t.denote sys)) (w' : World)
    (hrun : play sys (t.denote sys) b ops w = .ok c w')
    (maxSize : (t.denote sys).St → Option Nat) (hmax : (t.denote sys).maxSize = some maxSize)
    (m : Nat) (hm : maxSize c.st = some m) : ∀ a ∈ c.live, a.2.length ≤ m := by
  have := history sys t hwf b w hs ops (hops.fits sys hwf)
  rw [hrun] at this
  obtain ⟨h, hf, hd, he, ⟨h1, h2, hd1, rfl, hI, _⟩, _⟩ := this
  intro a ha
  exact (t.sound sys hwf).live_max maxSize hmax hI (List.mem_map_of_mem (f := blk) ha) m hm

example : (demoTy.denote (demoSys .manual)).maxSize.isSome = true := by decide
example : ((play (demoSys .manual) (demoTy.denote (demoSys .manual)) 4096 [.allocate 24, .allocate 200])
    (demoWorld demoTy.size)).test (fun c _ => c.live.length == 2) = true := by decide +kernel

/-- **C21.** A client that stays inside its live blocks never causes a corruption report, neither
while using nor (`hempty`) when destroying a composed allocator, however many `overflow` layers it
contains. -/
theorem C21_no_false_alarm (sys : Sys) (t : AllocTy) (hwf : t.WF) (b : Nat) (w : World)
    (hs : Storage w b t.size) (ops : List Op) (hops : Sane t ops) (c : Client (t.denote sys)) (w' : World)
    (hrun : play sys (t.denote sys) b ops w = .ok c w') :
    (∀ p n x y, Msg.corruption p n x y ∈ w'.out → Msg.corruption p n x y ∈ w.out) ∧
    (c.live = [] → ∀ u w'', (t.denote sys).fini c.st w' = .ok u w'' →
      ∀ p n x y, Msg.corruption p n x y ∈ w''.out → Msg.corruption p n x y ∈ w.out) := by
  have := history sys t hwf b w hs ops (hops.fits sys hwf)
  rw [hrun] at this
  obtain ⟨h, hf, hd, he, hI, hfb, hft, hna⟩ := this
  refine ⟨hna, fun hempty u w'' hfin => ?_⟩
  have hfs := ((t.sound sys hwf).fini_spec b c.st).frame (foreignV c.foreign)
  have hpre : ((t.sound sys hwf).Inv b c.st [] ∗ foreignV c.foreign) h := by
    simpa only [ClientInv, hempty, List.map_nil, blocksV, emp_star] using hI
  have := hfs w' h hf hd he hpre
  rw [hfin] at this
  exact hna.trans this.2

/-! ### C20 -/

namespace Overflow

/-- `d` is the distance of the farthest modified byte of a 64-byte guard zone whose byte at distance
`i` is `byte i`; 0 if none is modified. -/
def Farthest (byte : Nat → Option UInt8) (d : Nat) : Prop :=
  (d = 0 ∨ (1 ≤ d ∧ d ≤ 64 ∧ byte d ≠ some 0xA5)) ∧ ∀ i, 1 ≤ i → i ≤ 64 → d < i → byte i = some 0xA5

theorem Farthest.unique {byte d d'} (h : Farthest byte d) (h' : Farthest byte d') : d = d' := by
  rcases Nat.lt_trichotomy d d' with hl | rfl | hl
  · rcases h'.1 with e | ⟨e1, e2, e3⟩
    · omega
    · exact absurd (h.2 d' e1 e2 hl) e3
  · rfl
  · rcases h.1 with e | ⟨e1, e2, e3⟩
    · omega
    · exact absurd (h'.2 d e1 e2 hl) e3

theorem beforeOf_farthest (f : Nat → Option UInt8) (ptr : Nat) (r k cur : Nat) (hk : k + r = 65) (h1 : 1 ≤ k)
    (hc : cur = 0 ∨ (1 ≤ cur ∧ cur ≤ 64 ∧ f (ptr - cur) ≠ some pattern))
    (hb : ∀ i, 1 ≤ i → i < k → cur < i → f (ptr - i) = some pattern) (hck : cur < k) :
    Farthest (fun i => f (ptr - i)) (beforeOf f ptr k r cur) := by
  induction r generalizing k cur with
  | zero =>
    simp only [beforeOf]
    exact ⟨hc, fun i h2 h3 h4 => hb i h2 (by omega) h4⟩
  | succ r ih =>
    simp only [beforeOf]
    by_cases hv : f (ptr - k) = some pattern
    · simp only [hv, ne_eq, not_true, if_false]
      refine ih (k + 1) cur (by omega) (by omega) hc (fun i h2 h3 h4 => ?_) (by omega)
      by_cases hik : i = k
      · subst hik; exact hv
      · exact hb i h2 (by omega) h4
    · simp only [ne_eq, hv, not_false_eq_true, if_true]
      exact ih (k + 1) k (by omega) (by omega) (.inr ⟨h1, by omega, hv⟩) (fun i h2 h3 h4 => by omega) (by omega)

theorem afterOf_farthest (f : Nat → Option UInt8) (e : Nat) (r k cur : Nat) (hk : k + r = 64)
    (hc : cur = 0 ∨ (1 ≤ cur ∧ cur ≤ 64 ∧ f (e + cur - 1) ≠ some pattern))
    (hb : ∀ i, 1 ≤ i → i ≤ k → cur < i → f (e + i - 1) = some pattern) (hck : cur ≤ k) :
    Farthest (fun i => f (e + i - 1)) (afterOf f e k r cur) := by
  induction r generalizing k cur with
  | zero =>
    simp only [afterOf]
    exact ⟨hc, fun i h2 h3 h4 => hb i h2 (by omega) h4⟩
  | succ r ih =>
    have e1 : e + (k + 1) - 1 = e + k := by omega
    simp only [afterOf]
    by_cases hv : f (e + k) = some pattern
    · simp only [hv, ne_eq, not_true, if_false]
      refine ih (k + 1) cur (by omega) hc (fun i h2 h3 h4 => ?_) (by omega)
      by_cases hik : i = k + 1
      · subst hik; rw [e1]; exact hv
      · exact hb i h2 (by omega) h4
    · simp only [ne_eq, hv, not_false_eq_true, if_true]
      exact ih (k + 1) (k + 1) (by omega) (.inr ⟨by omega, by omega, by rw [e1]; exact hv⟩) (fun i h2 h3 h4 => by omega) (by omega)

end Overflow

open Overflow in
/-- **C20.** `overflow<A>::deallocate(p, n)`, for any underlying allocator and any contents of memory
in which the two guard zones exist: let `before`/`after` be the distances of the farthest modified
bytes of the two zones. The call prints exactly one report with these numbers if one of them is not
zero, and nothing otherwise, and then gives the widened block back to `A` in the same memory. -/
theorem C20_corruption_report_exact (A : Allocator) (s : Overflow.St A.St) (p n : Nat) (w : World)
    (hp : p ≠ 0) (hn : n + 128 < W64)
    (hg1 : ∀ i, 1 ≤ i → i ≤ 64 → (w.heap.b (p - i)).isSome = true)
    (hg2 : ∀ i, 1 ≤ i → i ≤ 64 → (w.heap.b (p + n + i - 1)).isSome = true) :
    ∃ before after,
      Farthest (fun i => w.heap.b (p - i)) before ∧ Farthest (fun i => w.heap.b (p + n + i - 1)) after ∧
      ∀ a w', (overflow A).dealloc s p n w = .ok a w' ↔
        A.dealloc s.a (p - 64) (n + 128)
          { w with out := w.out ++ if before = 0 ∧ after = 0 then [] else [.corruption p n before after] }
          = .ok a.a w' ∧ a.allocs = Int.bmod (s.allocs - n) (2 ^ 64) ∧ a.constructs = s.constructs := by
  refine ⟨beforeOf w.heap.b p 1 64 0, afterOf w.heap.b (p + n) 0 64 0,
    beforeOf_farthest _ _ 64 1 0 rfl (by omega) (.inl rfl) (fun i h1 h2 => by omega) (by omega),
    afterOf_farthest _ _ 64 0 0 rfl (.inl rfl) (fun i h1 h2 => by omega) (by omega), fun a w' => ?_⟩
  have e : addW n 128 = n + 128 := by unfold addW; omega
  simp only [overflow, ne_eq, hp, not_false_eq_true, if_true, e]
  rw [M.bind_apply, scanBefore_ok w p 1 64 0 (fun i h1 h2 => hg1 i h1 (by omega))]
  simp only
  rw [M.bind_apply, scanAfter_ok w (p + n) 0 64 0 (fun i h1 h2 => by
    have := hg2 (i + 1) (by omega) (by omega)
    rwa [show p + n + (i + 1) - 1 = p + n + i by omega] at this)]
  simp only
  generalize beforeOf w.heap.b p 1 64 0 = x
  generalize afterOf w.heap.b (p + n) 0 64 0 = y
  have hpr : (M.ifThen (¬ x = 0 ∨ ¬ y = 0) (M.print (.corruption p n x y))) w =
      .ok () { w with out := w.out ++ if x = 0 ∧ y = 0 then [] else [.corruption p n x y] } := by
    unfold M.ifThen
    by_cases hx : x = 0 <;> by_cases hy : y = 0 <;> simp [hx, hy, M.print, M.pure_apply]
  rw [M.bind_apply, hpr]
  simp only
  rw [M.bind_apply]
  cases hA : A.dealloc s.a (p - 64) (n + 128)
      { w with out := w.out ++ if x = 0 ∧ y = 0 then [] else [.corruption p n x y] } with
  | ok a1 w1 =>
    simp only [M.pure_apply]
    constructor
    · intro h; cases h; exact ⟨rfl, rfl, rfl⟩
    · rintro ⟨h1, h2, h3⟩
      cases h1
      obtain ⟨a1, a2, a3⟩ := a
      simp only at h2 h3
      subst h2; subst h3; rfl
  | oom w1 => simp
  | ub => simp

theorem writeBytes_final (p : Nat) (bs : List UInt8) (w w' : World) (u : Unit) (h : M.writeBytes p bs w = .ok u w') :
    (∀ i (hi : i < bs.length), w'.heap.b (p + i) = some bs[i]) ∧ ∀ x, x < p ∨ p + bs.length ≤ x → w'.heap.b x = w.heap.b x := by
  induction bs generalizing p w with
  | nil => cases h; exact ⟨fun i hi => absurd hi (by simp), fun _ _ => rfl⟩
  | cons y ys ih =>
    obtain ⟨_, w1, h1, h2⟩ := bind_ok h
    obtain ⟨hin, hout⟩ := ih (p + 1) w1 h2
    unfold M.store at h1
    split at h1
    · cases h1
      refine ⟨fun i hi => ?_, fun x hx => ?_⟩
      · cases i with
        | zero =>
          rw [hout _ (.inl (by omega))]
          simp
        | succ i =>
          have := hin i (by simpa using hi)
          rw [show p + 1 + i = p + (i + 1) by omega] at this
          simpa using this
      · simp only [List.length_cons] at hx
        rw [hout x (by omega)]
        have : x ≠ p := by omega
        simp [this]
    · cases h1

open Overflow in
/-- **C20**, the other half: a successful `allocate(n)` leaves the pattern in all 64 bytes before and all 64 bytes after the block. -/
theorem C20_guards_written (A : Allocator) (s s1 : Overflow.St A.St) (p n : Nat) (w w1 : World) (hal : (overflow A).alloc s n w = .ok (p, s1) w1) (hp : p ≠ 0) :
    Farthest (fun i => w1.heap.b (p - i)) 0 ∧ Farthest (fun i => w1.heap.b (p + n + i - 1)) 0 := by
  obtain ⟨r, w2, -, h2⟩ := bind_ok hal
  split at h2
  · cases h2; exact absurd rfl hp
  · obtain ⟨u, w3, h3, h4⟩ := bind_ok h2
    obtain ⟨u', w4, h5, h6⟩ := bind_ok h4
    cases h6
    obtain ⟨hin, -⟩ := writeBytes_final _ _ _ _ _ h3
    obtain ⟨hin', hout'⟩ := writeBytes_final _ _ _ _ _ h5
    refine ⟨⟨.inl rfl, fun i h1 h2 _ => ?_⟩, ⟨.inl rfl, fun i h1 h2 _ => ?_⟩⟩
    · show w1.heap.b (r.1 + 64 - i) = _
      rw [hout' _ (.inl (by omega)), show r.1 + 64 - i = r.1 + (64 - i) by omega, hin (64 - i) (by rw [List.length_replicate]; omega), List.getElem_replicate]
      rfl
    · show w1.heap.b (r.1 + 64 + n + i - 1) = _
      rw [show r.1 + 64 + n + i - 1 = r.1 + 64 + n + (i - 1) by omega, hin' (i - 1) (by rw [List.length_replicate]; omega), List.getElem_replicate]
      rfl

open Overflow in
/-- **C20**, from `allocate` to `deallocate`, whatever happened in between: the report is written iff some byte of the 64 before or the 64 after the block is
not what it was when `allocate` returned. -/
theorem C20_report_iff_changed (A : Allocator) (s s1 s2 a : Overflow.St A.St) (p n : Nat) (w w1 w2 w3 : World)
    (hal : (overflow A).alloc s n w = .ok (p, s1) w1) (hp : p ≠ 0) (hn : n + 128 < W64)
    (hg1 : ∀ i, 1 ≤ i → i ≤ 64 → (w2.heap.b (p - i)).isSome = true)
    (hg2 : ∀ i, 1 ≤ i → i ≤ 64 → (w2.heap.b (p + n + i - 1)).isSome = true)
    (hde : (overflow A).dealloc s2 p n w2 = .ok a w3) :
    ∃ rep, A.dealloc s2.a (p - 64) (n + 128) { w2 with out := w2.out ++ rep } = .ok a.a w3 ∧
      (rep = [] ∨ ∃ before after, rep = [.corruption p n before after]) ∧
      (rep ≠ [] ↔ ∃ i, 1 ≤ i ∧ i ≤ 64 ∧ (w2.heap.b (p - i) ≠ w1.heap.b (p - i) ∨ w2.heap.b (p + n + i - 1) ≠ w1.heap.b (p + n + i - 1))) := by
  obtain ⟨⟨-, hb⟩, -, ha⟩ := C20_guards_written A s s1 p n w w1 hal hp
  have hb : ∀ i, 1 ≤ i → i ≤ 64 → 0 < i → w1.heap.b (p - i) = some 0xA5 := hb
  have ha : ∀ i, 1 ≤ i → i ≤ 64 → 0 < i → w1.heap.b (p + n + i - 1) = some 0xA5 := ha
  obtain ⟨before, after, hB, hA, hd⟩ := C20_corruption_report_exact A s2 p n w2 hp hn hg1 hg2
  refine ⟨_, ((hd a w3).1 hde).1, ?_, ?_⟩
  · split
    · exact .inl rfl
    · exact .inr ⟨_, _, rfl⟩
  · constructor
    · intro h
      have h' : ¬ (before = 0 ∧ after = 0) := fun e => h (if_pos e)
      by_cases h0 : before = 0
      · obtain ⟨h1, h2, h3⟩ := hA.1.resolve_left (fun e => h' ⟨h0, e⟩)
        exact ⟨after, h1, h2, .inr (by rw [ha after h1 h2 (by omega)]; exact h3)⟩
      · obtain ⟨h1, h2, h3⟩ := hB.1.resolve_left h0
        exact ⟨before, h1, h2, .inl (by rw [hb before h1 h2 (by omega)]; exact h3)⟩
    · rintro ⟨i, h1, h2, h⟩ hrep
      have h' : before = 0 ∧ after = 0 := by
        by_cases h0 : before = 0 ∧ after = 0
        · exact h0
        · rw [if_neg h0] at hrep; cases hrep
      rw [hb i h1 h2 (by omega), ha i h1 h2 (by omega)] at h
      rw [h'.1] at hB
      rw [h'.2] at hA
      rcases h with h | h
      · exact h (hB.2 i h1 h2 (by omega))
      · exact h (hA.2 i h1 h2 (by omega))

/-- the report is really printed: two live bytes of the zones overwritten, at distances 3 and 7 before
and 2 after the block -/
example : ((do
    let A := overflow (linear 256)
    let s ← A.init 4096
    let r ← A.alloc s 10
    M.store (r.1 - 3) 1
    M.store (r.1 - 7) 2
    M.store (r.1 + 10 + 1) 3
    A.dealloc r.2 r.1 10 : M _) (demoWorld 512)).test
      (fun _ w => w.out == [.corruption 4160 10 7 2]) = true := by decide +kernel
/-- bytes that are written back before `deallocate` are not reported -/
example : ((do
    let A := overflow (linear 256)
    let s ← A.init 4096
    let r ← A.alloc s 10
    let x ← M.load (r.1 - 3)
    M.store (r.1 - 3) 1
    M.store (r.1 - 3) x
    A.dealloc r.2 r.1 10 : M _) (demoWorld 512)).test
      (fun _ w => w.out == []) = true := by decide +kernel
/-- the hypotheses of C20 hold for a block inside allocated memory -/
example : ∀ i, 1 ≤ i → i ≤ 64 → ((demoWorld 512).heap.b (4160 - i)).isSome = true := by
  intro i h1 h2
  simp only [demoWorld]
  rw [if_pos (by omega)]; rfl

/-! ### C22, C23 -/

open Overflow in
theorem wrap64_add (x y : Int) : wrap64 (wrap64 x + y) = wrap64 (x + y) := by
  unfold wrap64; exact Int.bmod_add_bmod

open Overflow in
theorem wrap64_sub (x y : Int) : wrap64 (wrap64 x - y) = wrap64 (x - y) := by
  unfold wrap64; exact Int.bmod_sub_bmod

/-- total size of the blocks the client holds -/
def liveBytes (live : List (Nat × List UInt8)) : Nat := (live.map (fun a => a.2.length)).sum

theorem overflow_construct_post (A : Allocator) (s : Overflow.St A.St) (p : Nat) :
    Post (callOpt (overflow A).construct s p) (fun s' => s'.allocs = s.allocs ∧ s'.constructs = s.constructs + 1) := by
  simp only [overflow, callOpt]
  cases A.construct with
  | some f => exact Post.bind' (fun _ => Post.pure ⟨rfl, rfl⟩)
  | none => exact Post.bind' (fun _ => Post.pure ⟨rfl, rfl⟩)

theorem overflow_destroy_post (A : Allocator) (s : Overflow.St A.St) (p : Nat) :
    Post (callOpt (overflow A).destroy s p) (fun s' => s'.allocs = s.allocs ∧ s'.constructs = s.constructs - 1) := by
  simp only [overflow, callOpt]
  cases A.destroy with
  | some f => exact Post.bind' (fun _ => Post.pure ⟨rfl, rfl⟩)
  | none => exact Post.bind' (fun _ => Post.pure ⟨rfl, rfl⟩)

open Overflow in
theorem overflow_step (sys : Sys) (A : Allocator) (c : Client (overflow A)) (o : Op)
    (hc : c.st.allocs = wrap64 (liveBytes c.live + c.refused.sum) ∧ c.st.constructs = c.built) :
    Post (c.step sys o) (fun c' =>
      c'.st.allocs = wrap64 (liveBytes c'.live + c'.refused.sum) ∧ c'.st.constructs = c'.built) := by
  obtain ⟨h1, h2⟩ := hc
  cases o with
  | allocate n =>
    simp only [Client.step]
    refine Post.bind (R := fun r => r.2.allocs = wrap64 (c.st.allocs + n) ∧ r.2.constructs = c.st.constructs) ?_ ?_
    · simp only [overflow]
      refine Post.bind' (fun r => ?_)
      split
      · exact Post.pure ⟨rfl, rfl⟩
      · exact Post.bind' (fun _ => Post.bind' (fun _ => Post.pure ⟨rfl, rfl⟩))
    · rintro r ⟨e1, e2⟩
      split
      · refine Post.pure ⟨?_, by simp only [e2, h2]⟩
        simp only [e1, h1, wrap64_add, List.sum_cons]
        congr 1; push_cast; omega
      · refine Post.bind (R := fun bs => bs.length = n) ?_ ?_
        · have : ∀ (n p : Nat), Post (M.readBytes p n) (fun bs => bs.length = n) := by
            intro n
            induction n with
            | zero => intro p; exact Post.pure rfl
            | succ n ih =>
              intro p
              exact Post.bind' (fun x => Post.bind (ih _) (fun bs h => Post.pure (by simp [h])))
          exact this n r.1
        · intro bs hbs
          refine Post.pure ⟨?_, by simp only [e2, h2]⟩
          simp only [e1, h1, wrap64_add, liveBytes, List.map_cons, List.sum_cons, hbs]
          congr 1; push_cast; omega
  | deallocate i =>
    simp only [Client.step]
    cases hi : c.live[i]? with
    | none => exact Post.pure ⟨h1, h2⟩
    | some x =>
      simp only
      refine Post.bind (R := fun s => s.allocs = wrap64 (c.st.allocs - x.2.length) ∧ s.constructs = c.st.constructs) ?_ ?_
      · simp only [overflow]
        split
        · exact Post.bind' (fun _ => Post.bind' (fun _ => Post.bind' (fun _ => Post.bind' (fun _ => Post.pure ⟨rfl, rfl⟩))))
        · exact Post.pure ⟨rfl, rfl⟩
      · rintro s ⟨e1, e2⟩
        refine Post.pure ⟨?_, by simp only [e2, h2]⟩
        have hp := ((perm_eraseIdx hi).map (fun a => a.2.length)).sum_nat
        simp only [e1, h1, wrap64_sub, liveBytes]
        rw [hp, List.map_cons, List.sum_cons]
        congr 1; push_cast; omega
  | write i off v =>
    simp only [Client.step]
    cases hi : c.live[i]? with
    | none => exact Post.pure ⟨h1, h2⟩
    | some x =>
      simp only
      split
      · refine Post.bind' (fun _ => Post.pure ⟨?_, h2⟩)
        have hp := ((perm_eraseIdx hi).map (fun a => a.2.length)).sum_nat
        have hs := ((perm_set (y := (x.1, x.2.set off v)) hi).map (fun a => a.2.length)).sum_nat
        simp only [h1, liveBytes]
        rw [hp, hs]; simp
      · exact Post.pure ⟨h1, h2⟩
  | construct i off =>
    simp only [Client.step]
    cases hi : c.live[i]? with
    | none => exact Post.pure ⟨h1, h2⟩
    | some x =>
      simp only
      refine Post.bind (R := fun s => s.allocs = c.st.allocs ∧ s.constructs = c.st.constructs + 1) ?_ ?_
      · exact overflow_construct_post A c.st _
      · rintro s ⟨e1, e2⟩
        exact Post.pure ⟨by simp only [e1, h1], by simp only [e2, h2]⟩
  | destroy i off =>
    simp only [Client.step]
    cases hi : c.live[i]? with
    | none => exact Post.pure ⟨h1, h2⟩
    | some x =>
      simp only
      refine Post.bind (R := fun s => s.allocs = c.st.allocs ∧ s.constructs = c.st.constructs - 1) ?_ ?_
      · exact overflow_destroy_post A c.st _
      · rintro s ⟨e1, e2⟩
        exact Post.pure ⟨by simp only [e1, h1], by simp only [e2, h2]⟩
  | foreign n =>
    simp only [Client.step]
    refine Post.bind' (fun p => ?_)
    split
    · exact Post.pure ⟨h1, h2⟩
    · exact Post.bind' (fun _ => Post.pure ⟨h1, h2⟩)

open Overflow in
theorem overflow_play (sys : Sys) (A : Allocator) (b : Nat) (ops : List Op) :
    Post (play sys (overflow A) b ops) (fun c =>
      c.st.allocs = wrap64 (liveBytes c.live + c.refused.sum) ∧ c.st.constructs = c.built) := by
  refine Post.bind (R := fun s : Overflow.St A.St => s.allocs = 0 ∧ s.constructs = 0) ?_ ?_
  · simp only [overflow]
    exact Post.bind' (fun _ => Post.pure ⟨rfl, rfl⟩)
  · rintro s ⟨e1, e2⟩
    have : ∀ (ops : List Op) (c : Client (overflow A)),
        c.st.allocs = wrap64 (liveBytes c.live + c.refused.sum) ∧ c.st.constructs = c.built →
        Post (c.run sys ops) (fun c =>
          c.st.allocs = wrap64 (liveBytes c.live + c.refused.sum) ∧ c.st.constructs = c.built) := by
      intro ops
      induction ops with
      | nil => intro c hc; exact Post.pure hc
      | cons o os ih => intro c hc; exact Post.bind (overflow_step sys A c o hc) (fun c' hc' => ih c' hc')
    refine this ops _ ⟨?_, by simp only [e2]⟩
    simp only [e1, liveBytes]; rfl

/-- What the destructor should print about bytes that were allocated but not deallocated. -/
def leakReport (d : Int) : List Msg := if d = 0 then [] else [.leak d]
/-- What the destructor should print about constructor calls without destructor calls. -/
def logicReport (d : Int) : List Msg := if d = 0 then [] else [.logic d]

theorem overflow_fini (A : Allocator) (s : Overflow.St A.St) (w : World) :
    (overflow A).fini s w = A.fini s.a { w with out := w.out ++ leakReport s.allocs ++ logicReport s.constructs } := by
  simp only [overflow]
  rw [M.bind_apply]
  have h1 : (M.ifThen (s.allocs ≠ 0) (M.print (.leak s.allocs))) w = .ok () { w with out := w.out ++ leakReport s.allocs } := by
    unfold M.ifThen leakReport
    by_cases h : s.allocs = 0 <;> simp [h, M.print, M.pure_apply]
  have h2 : ∀ w : World, (M.ifThen (s.constructs ≠ 0) (M.print (.logic s.constructs))) w =
      .ok () { w with out := w.out ++ logicReport s.constructs } := by
    intro w
    unfold M.ifThen logicReport
    by_cases h : s.constructs = 0 <;> simp [h, M.print, M.pure_apply]
  rw [h1]
  simp only
  rw [M.bind_apply, h2]

/-- **C22 (partial).** After any history whatsoever on an `overflow` allocator over any allocator, the
destructor's leak report is the exact number of bytes still live — *plus the sizes of all requests that
were answered with null*, which the code also counts. The full claim (no report for a program that
frees everything it received) is false because of that last term, see `C22_false_leak_report`; it holds
when no request was refused. Totals of 2^63 bytes or more wrap, as `int64_t` does. -/
theorem C22_leak_accounting_partial (sys : Sys) (A : Allocator) (b : Nat) (ops : List Op) (w w' : World)
    (c : Client (overflow A)) (hrun : play sys (overflow A) b ops w = .ok c w') :
    (overflow A).fini c.st w' = A.fini c.st.a { w' with
      out := w'.out ++ leakReport (Int.bmod (liveBytes c.live + c.refused.sum) (2 ^ 64)) ++ logicReport c.built } ∧
    (c.refused = [] → liveBytes c.live < 2 ^ 63 →
      (overflow A).fini c.st w' = A.fini c.st.a { w' with
        out := w'.out ++ leakReport (liveBytes c.live) ++ logicReport c.built }) := by
  obtain ⟨h1, h2⟩ := overflow_play sys A b ops w c w' hrun
  have e : (overflow A).fini c.st w' = A.fini c.st.a { w' with
      out := w'.out ++ leakReport (Int.bmod (liveBytes c.live + c.refused.sum) (2 ^ 64)) ++ logicReport c.built } := by
    refine (overflow_fini A c.st w').trans ?_
    rw [h1, h2]; rfl
  refine ⟨e, fun hr hl => ?_⟩
  have e2 : Int.bmod (liveBytes c.live + c.refused.sum) (2 ^ 64) = liveBytes c.live := by
    rw [hr]
    simp only [List.sum_nil, Int.natCast_zero, Int.add_zero]
    rw [Int.bmod_eq_of_le] <;> omega
  rw [e2] at e
  exact e

/-- **C22, negation.** A program that frees everything it received (here: it received nothing) is told
that it leaked: `allocate` adds `n` to the counter before it knows whether the request succeeds. -/
theorem C22_false_leak_report : ∃ (c : Client (overflow nullAlloc)) (w' w'' : World),
    play (demoSys .direct) (overflow nullAlloc) 4096 [.allocate 5] (demoWorld 32) = .ok c w' ∧
    c.live = [] ∧ (overflow nullAlloc).fini c.st w' = .ok () w'' ∧ w''.out = [.leak 5] := by
  refine ⟨_, _, _, rfl, rfl, rfl, rfl⟩

/-- **C23.** After any history the destructor reports the exact difference between `construct` and
`destroy` calls, and nothing about them when they balance. -/
theorem C23_construct_accounting (sys : Sys) (A : Allocator) (b : Nat) (ops : List Op) (w w' : World)
    (c : Client (overflow A)) (hrun : play sys (overflow A) b ops w = .ok c w') :
    ∃ leak, (∀ m ∈ leak, ∀ d, m ≠ Msg.logic d) ∧
      (overflow A).fini c.st w' = A.fini c.st.a { w' with out := w'.out ++ leak ++ logicReport c.built } := by
  refine ⟨_, ?_, (C22_leak_accounting_partial sys A b ops w w' c hrun).1⟩
  intro m hm d
  unfold leakReport at hm
  split at hm
  · simp at hm
  · simp at hm; subst hm; simp

/-- a history with one block left, one construct call too many and one refused request -/
example : ((do
    let c ← play (demoSys .direct) (overflow (linear 256)) 4096
      [.allocate 10, .construct 0 0, .construct 0 4, .destroy 0 0, .allocate 1000]
    (overflow (linear 256)).fini c.st : M _) (demoWorld 512)).test
      (fun _ w => w.out == [.leak 1010, .logic 1]) = true := by decide +kernel
example : ((do
    let c ← play (demoSys .direct) (overflow (linear 256)) 4096
      [.allocate 10, .construct 0 0, .write 0 5 3, .destroy 0 0, .deallocate 0]
    (overflow (linear 256)).fini c.st : M _) (demoWorld 512)).test
      (fun _ w => w.out == []) = true := by decide +kernel

end KTL

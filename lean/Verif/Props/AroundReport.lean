import Verif.Props.Around
import Verif.Props.Silent

/- C96: what an `overflow` that was put around an allocator in use reports when it is destroyed. -/
namespace KTL

/-! ### Specification -/

/-- bytes requested of the object itself, if the number of blocks shows that they were refused -/
def DoorOp.refused (before after : Nat) : DoorOp → Nat
  | .allocate 0 n => if after = before then n else 0
  | _ => 0

/-- the same for a run -/
def DoorClient.refused {sys : Sys} {t : AllocTy} (c : DoorClient sys t) : List DoorOp → M Nat
  | [] => pure 0
  | o :: os => do
    let c' ← c.step o
    let k ← c'.refused os
    pure (o.refused (c.live 0).length (c'.live 0).length + k)

/-- calls of `construct` of the object itself, less those of `destroy` -/
def DoorOp.net : DoorOp → Int
  | .construct 0 _ => 1
  | .destroy 0 _ => -1
  | _ => 0

/-- bytes in blocks -/
def bytesHeld (L : List (Nat × List UInt8)) : Nat := (L.map fun x => x.2.length).sum

/-! ### Helpers -/

theorem bytesHeld_eraseIdx {L : List (Nat × List UInt8)} {i : Nat} {x : Nat × List UInt8} (h : L[i]? = some x) :
    bytesHeld L = bytesHeld (L.eraseIdx i) + x.2.length := by
  induction L generalizing i with
  | nil => cases h
  | cons y L ih =>
    cases i with
    | zero => cases h; simp [bytesHeld]; omega
    | succ i =>
      have := ih (i := i) (by simpa using h)
      simp only [bytesHeld, List.eraseIdx_cons_succ, List.map_cons, List.sum_cons] at this ⊢
      omega

theorem bytesHeld_set {L : List (Nat × List UInt8)} {i : Nat} {x y : Nat × List UInt8} (h : L[i]? = some x) (he : y.2.length = x.2.length) :
    bytesHeld (L.set i y) = bytesHeld L := by
  induction L generalizing i with
  | nil => cases h
  | cons z L ih =>
    cases i with
    | zero => cases h; simp [bytesHeld, he]
    | succ i =>
      have := ih (i := i) (by simpa using h)
      simp only [bytesHeld, List.set_cons_succ, List.map_cons, List.sum_cons] at this ⊢
      omega

/-- the counters of an `overflow` that is used only through `get_allocator()` -/
theorem through_overflow {sys : Sys} {A : AllocTy} {α : Type} {f : (u : AllocTy) → (u.denote sys).St → M (α × (u.denote sys).St)} {k : Nat}
    {s : Overflow.St (A.denote sys).St} {r : α × ((AllocTy.overflow A).denote sys).St} {w w' : World}
    (h : (AllocTy.overflow A).through sys f (k + 1) s w = .ok r w') :
    (show Overflow.St (A.denote sys).St from r.2).allocs = s.allocs ∧ (show Overflow.St (A.denote sys).St from r.2).constructs = s.constructs := by
  obtain ⟨q, w1, _, h2⟩ := bind_ok h
  cases h2
  exact ⟨rfl, rfl⟩

/-- the fields of the outer `overflow` -/
abbrev DoorClient.outer {sys : Sys} {A : AllocTy} (c : DoorClient sys (.overflow A)) : Overflow.St (A.denote sys).St := c.st

/-- what a step adds to the two counters -/
theorem DoorClient.step_counts {sys : Sys} {A : AllocTy} (c : DoorClient sys (.overflow A)) (o : DoorOp) (ho : DoorSane (.overflow A) o)
    (x : Int) (hx : c.outer.allocs = Overflow.wrap64 x) (c' : DoorClient sys (.overflow A)) (w w' : World) (h : c.step o w = .ok c' w') :
    c'.outer.allocs = Overflow.wrap64 (x + (bytesHeld (c'.live 0) - bytesHeld (c.live 0)) + o.refused (c.live 0).length (c'.live 0).length) ∧
      c'.outer.constructs = c.outer.constructs + o.net := by
  cases o with
  | allocate k n =>
    obtain ⟨r, w1, h1, h2⟩ := bind_ok h
    cases k with
    | succ k =>
      have e := through_overflow h1
      split at h2
      · cases h2; exact ⟨by rw [show _ = _ from e.1, hx]; simp [DoorOp.refused], by rw [show _ = _ from e.2]; simp [DoorOp.net]⟩
      · obtain ⟨bs, w2, h3, h4⟩ := bind_ok h2
        cases h4
        refine ⟨?_, by rw [show _ = _ from e.2]; simp [DoorOp.net]⟩
        rw [show _ = _ from e.1, hx]
        simp [put, DoorOp.refused]
    | zero =>
      obtain ⟨q, w2, h3, h4⟩ := bind_ok (show (overflow (A.denote sys)).alloc c.outer n w = .ok r w1 from h1)
      have key : (show Overflow.St (A.denote sys).St from r.2).allocs = Overflow.wrap64 (c.outer.allocs + n) ∧
          (show Overflow.St (A.denote sys).St from r.2).constructs = c.outer.constructs := by
        split at h4
        · cases h4; exact ⟨rfl, rfl⟩
        · obtain ⟨_, w3, _, h5⟩ := bind_ok h4
          obtain ⟨_, w4, _, h6⟩ := bind_ok h5
          cases h6; exact ⟨rfl, rfl⟩
      rw [hx, wrap64_add] at key
      split at h2
      · cases h2
        refine ⟨?_, by rw [show _ = _ from key.2]; simp [DoorOp.net]⟩
        rw [show _ = _ from key.1]
        simp [DoorOp.refused]
      · obtain ⟨bs, w2, h3, h4⟩ := bind_ok h2
        cases h4
        have hl := Linear.readBytes_length _ _ _ _ _ h3
        refine ⟨?_, by rw [show _ = _ from key.2]; simp [DoorOp.net]⟩
        rw [show _ = _ from key.1]
        simp [put, bytesHeld, hl, DoorOp.refused]
  | deallocate k i j =>
    simp only [DoorClient.step] at h
    cases hy : (c.live k)[i]? with
    | none => rw [hy] at h; cases h; exact ⟨by rw [hx]; simp [DoorOp.refused], by simp [DoorOp.net]⟩
    | some y =>
      rw [hy] at h
      obtain ⟨r, w1, h1, h2⟩ := bind_ok h
      cases h2
      have hjk : j = 0 ↔ k = 0 := by
        constructor
        · rintro rfl
          rcases Nat.eq_zero_or_pos k with hk | hk
          · exact hk
          · obtain ⟨u, hu, hp⟩ := ho 0 (by omega) (by omega)
            cases hu; cases hp
        · rintro rfl
          rcases Nat.eq_zero_or_pos j with hk | hk
          · exact hk
          · obtain ⟨u, hu, hp⟩ := ho 0 (by omega) (by omega)
            cases hu; cases hp
      cases j with
      | succ j =>
        have e := through_overflow h1
        refine ⟨?_, by rw [show _ = _ from e.2]; simp [DoorOp.net]⟩
        rw [show _ = _ from e.1, hx]
        cases k with
        | zero => exact absurd (hjk.2 rfl) (by omega)
        | succ k => simp [put, DoorOp.refused]
      | zero =>
        obtain rfl := hjk.1 rfl
        obtain ⟨s', w2, h3, h4⟩ := bind_ok h1
        cases h4
        have key : (show Overflow.St (A.denote sys).St from s').allocs = Overflow.wrap64 (c.outer.allocs - y.2.length) ∧
            (show Overflow.St (A.denote sys).St from s').constructs = c.outer.constructs := by
          have h3 : (overflow (A.denote sys)).dealloc c.outer y.1 y.2.length w = .ok s' w' := h3
          simp only [overflow] at h3
          split at h3
          · obtain ⟨_, _, _, h5⟩ := bind_ok h3
            obtain ⟨_, _, _, h6⟩ := bind_ok h5
            obtain ⟨_, _, _, h7⟩ := bind_ok h6
            obtain ⟨_, _, _, h8⟩ := bind_ok h7
            cases h8; exact ⟨rfl, rfl⟩
          · cases h3; exact ⟨rfl, rfl⟩
        rw [hx, wrap64_sub] at key
        refine ⟨?_, by rw [show _ = _ from key.2]; simp [DoorOp.net]⟩
        rw [show _ = _ from key.1]
        have := bytesHeld_eraseIdx hy
        congr 1
        simp only [put, if_true, DoorOp.refused]
        omega
  | write k i off v =>
    simp only [DoorClient.step] at h
    cases hy : (c.live k)[i]? with
    | none => rw [hy] at h; cases h; exact ⟨by rw [hx]; simp [DoorOp.refused], by simp [DoorOp.net]⟩
    | some y =>
      rw [hy] at h
      by_cases hlt : off < y.2.length
      · dsimp only at h
        rw [if_pos hlt] at h
        obtain ⟨_, w1, _, h2⟩ := bind_ok h
        cases h2
        refine ⟨?_, by simp [DoorOp.net]⟩
        rw [show _ = _ from hx]
        cases k with
        | zero => simp [put, bytesHeld_set hy, DoorOp.refused]
        | succ k => simp [put, DoorOp.refused]
      · dsimp only at h
        rw [if_neg hlt] at h
        cases h; exact ⟨by rw [hx]; simp [DoorOp.refused], by simp [DoorOp.net]⟩
  | construct k p =>
    obtain ⟨r, w1, h1, h2⟩ := bind_ok h
    cases h2
    cases k with
    | succ k =>
      have e := through_overflow h1
      exact ⟨by rw [show _ = _ from e.1, hx]; simp [DoorOp.refused], by rw [show _ = _ from e.2]; simp [DoorOp.net]⟩
    | zero =>
      obtain ⟨s', w2, h3, h4⟩ := bind_ok h1
      cases h4
      have key : (show Overflow.St (A.denote sys).St from s').allocs = c.outer.allocs ∧
          (show Overflow.St (A.denote sys).St from s').constructs = c.outer.constructs + 1 := by
        have h3 : callOpt (overflow (A.denote sys)).construct c.outer p w = .ok s' w' := h3
        simp only [overflow, callOpt] at h3
        cases hc : (A.denote sys).construct <;> rw [hc] at h3 <;>
        · obtain ⟨_, _, _, h5⟩ := bind_ok h3
          cases h5; exact ⟨rfl, rfl⟩
      exact ⟨by rw [show _ = _ from key.1, hx]; simp [DoorOp.refused], by rw [show _ = _ from key.2]; simp [DoorOp.net]⟩
  | destroy k p =>
    obtain ⟨r, w1, h1, h2⟩ := bind_ok h
    cases h2
    cases k with
    | succ k =>
      have e := through_overflow h1
      exact ⟨by rw [show _ = _ from e.1, hx]; simp [DoorOp.refused], by rw [show _ = _ from e.2]; simp [DoorOp.net]⟩
    | zero =>
      obtain ⟨s', w2, h3, h4⟩ := bind_ok h1
      cases h4
      have key : (show Overflow.St (A.denote sys).St from s').allocs = c.outer.allocs ∧
          (show Overflow.St (A.denote sys).St from s').constructs = c.outer.constructs - 1 := by
        have h3 : callOpt (overflow (A.denote sys)).destroy c.outer p w = .ok s' w' := h3
        simp only [overflow, callOpt] at h3
        cases hc : (A.denote sys).destroy <;> rw [hc] at h3 <;>
        · obtain ⟨_, _, _, h5⟩ := bind_ok h3
          cases h5; exact ⟨rfl, rfl⟩
      exact ⟨by rw [show _ = _ from key.1, hx]; simp [DoorOp.refused], by rw [show _ = _ from key.2]; simp [DoorOp.net]; omega⟩
  | foreign n =>
    obtain ⟨p, w1, h1, h2⟩ := bind_ok h
    split at h2
    · cases h2; exact ⟨by rw [hx]; simp [DoorOp.refused], by simp [DoorOp.net]⟩
    · obtain ⟨_, w2, _, h4⟩ := bind_ok h2
      cases h4; exact ⟨by rw [show _ = _ from hx]; simp [DoorOp.refused], by simp [DoorOp.net]⟩

/-- what a run adds to the two counters -/
theorem DoorClient.run_counts {sys : Sys} {A : AllocTy} (ops : List DoorOp) (hops : ∀ o ∈ ops, DoorSane (.overflow A) o)
    (c : DoorClient sys (.overflow A)) (x : Int) (hx : c.outer.allocs = Overflow.wrap64 x) (c' : DoorClient sys (.overflow A)) (w w' : World)
    (h : c.run ops w = .ok c' w') :
    ∃ k, c.refused ops w = .ok k w' ∧ c'.outer.allocs = Overflow.wrap64 (x + (bytesHeld (c'.live 0) - bytesHeld (c.live 0)) + k) ∧
      c'.outer.constructs = c.outer.constructs + (ops.map DoorOp.net).sum := by
  induction ops generalizing c x w with
  | nil =>
    cases h
    exact ⟨0, rfl, by rw [hx]; simp, by simp⟩
  | cons o os ih =>
    obtain ⟨c1, w1, h1, h2⟩ := bind_ok h
    have k1 := c.step_counts o (hops o (by simp)) x hx c1 w w1 h1
    obtain ⟨k, e, e1, e2⟩ := ih (fun o ho => hops o (by simp [ho])) c1 _ k1.1 w1 h2
    refine ⟨o.refused (c.live 0).length (c1.live 0).length + k, ?_, ?_, ?_⟩
    · rw [DoorClient.refused, bind_of_ok h1, bind_of_ok e]; rfl
    · rw [e1]
      congr 1
      push_cast
      omega
    · rw [e2, k1.2, List.map_cons, List.sum_cons]; omega

/-! ### The property -/

/-- **C96, the report.** An `overflow` is constructed around allocators in use (`a1` stands for the arguments). It and what is inside it are used
(`ops`), then the memory may change in any way (others use theirs, from `w3` to `w4`), then it is used again (`ops'`). Its destructor reports the
bytes in the blocks that were obtained from it and not given back, and those of requests it refused (modulo `2^64`, as an `int64_t`), and the calls
of `construct` less those of `destroy`; if these are zero, nothing. Blocks the program held of the arguments before do not count. -/
theorem C96_around_report (sys : Sys) (A : AllocTy) (a1 : Make (Used sys) A) (b : Nat) (ops ops' : List DoorOp)
    (hops : ∀ o ∈ ops ++ ops', DoorSane (.overflow A) o) (w1 w2 w3 w4 w5 : World) (r : ((AllocTy.overflow A).denote sys).St × Make (Used sys) (.overflow A))
    (hbuild : (Make.overflow a1).build b w1 = .ok r w2) (c c' : DoorClient sys (.overflow A))
    (hrun : DoorClient.run { st := r.1, live := (Make.overflow a1).live, foreign := [] } ops w2 = .ok c w3) (hrun' : c.run ops' w4 = .ok c' w5) :
    ∃ k k', DoorClient.refused { st := r.1, live := (Make.overflow a1).live, foreign := [] } ops w2 = .ok k w3 ∧ c.refused ops' w4 = .ok k' w5 ∧
      ∀ w, ((AllocTy.overflow A).denote sys).fini c'.st w = (A.denote sys).fini (show Overflow.St (A.denote sys).St from c'.st).a
        { w with out := w.out ++ leakReport (Int.bmod ((bytesHeld (c'.live 0) + k + k' : Nat) : Int) (2 ^ 64)) ++ logicReport (((ops ++ ops').map DoorOp.net).sum) } := by
  obtain ⟨q, w0, _, h2⟩ := bind_ok hbuild
  cases h2
  obtain ⟨k, e, e1, e2⟩ := DoorClient.run_counts ops (fun o ho => hops o (List.mem_append_left _ ho)) _ 0
    (show (0 : Int) = Overflow.wrap64 0 by decide) c _ _ hrun
  obtain ⟨k', e', e1', e2'⟩ := DoorClient.run_counts ops' (fun o ho => hops o (List.mem_append_right _ ho)) c _ e1 c' _ _ hrun'
  refine ⟨k, k', e, e', fun w => (overflow_fini (A.denote sys) c'.outer w).trans ?_⟩
  have h0 : bytesHeld ((Make.overflow a1 : Make (Used sys) (.overflow A)).live 0) = 0 := rfl
  have hw (x : Int) : Overflow.wrap64 x = Int.bmod x (2 ^ 64) := by simp only [Overflow.wrap64, Nat.reducePow]
  have hc : c'.outer.constructs = ((ops ++ ops').map DoorOp.net).sum := by
    rw [e2', e2, List.map_append, List.sum_append]
    exact congrArg (· + _) (Int.zero_add _)
  have ha : c'.outer.allocs = Int.bmod ((bytesHeld (c'.live 0) + k + k' : Nat) : Int) (2 ^ 64) := by
    rw [e1', hw]
    dsimp only
    generalize (2 : Nat) ^ 64 = K
    congr 1
    push_cast
    rw [h0]
    omega
  rw [ha, hc]

/-! ### A concrete instance -/

/-- around a `mallocator` of which the program holds 24 bytes -/
def reportMake : Make (fun _ => Src) .mallocator := .moved 8192 ⟨[.allocate 24], [.allocate 8]⟩

def reportOps : List DoorOp := [.allocate 0 10, .allocate 1 5, .construct 0 1]
def reportOps' : List DoorOp := [.deallocate 1 0 1, .allocate 0 6]

example : (∀ o ∈ reportOps ++ reportOps', DoorSane (.overflow .mallocator) o) ∧
    (reportMake.prepare (demoSys .direct) (demoWorld 16384)).test (fun a1 w1 =>
      (((Make.overflow a1).use 4096 reportOps reportOps' >>= fun r => ((AllocTy.overflow .mallocator).denote (demoSys .direct)).fini r.1.st) w1).test
        fun _ w => decide (w.out = [Msg.leak 16, Msg.logic 1])) = true := by
  refine ⟨fun o ho => ?_, by decide +kernel⟩
  simp only [reportOps, reportOps', List.cons_append, List.nil_append, List.mem_cons, List.not_mem_nil, or_false] at ho
  rcases ho with rfl | rfl | rfl | rfl | rfl
  · exact ⟨_, rfl, by decide, by decide⟩
  · exact ⟨_, rfl, by decide, by decide⟩
  · exact Nat.zero_le _
  · exact fun i h1 h2 => by omega
  · exact ⟨_, rfl, by decide, by decide⟩

/-- nothing but blocks from before: no report -/
example : (reportMake.prepare (demoSys .direct) (demoWorld 16384)).test (fun a1 w1 =>
      (((Make.overflow a1).use 4096 [] [] >>= fun r => ((AllocTy.overflow .mallocator).denote (demoSys .direct)).fini r.1.st) w1).test
        fun _ w => decide (w.out = [])) = true := by decide +kernel

end KTL

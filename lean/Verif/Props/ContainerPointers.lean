import Verif.Spec.ContainerPointers
import Verif.Spec.Demo

/- C91: what `trivial_vector` and `trivial_array` do with pointers. -/
namespace KTL

/-- The calls that may hand the null pointer to `memcpy` or `memmove`: copy assignment from an empty vector, copying an emptied vector,
construction from an empty range, appending an empty range to a vector without memory, erasing the empty range of such a vector. -/
def VOp.mayPassNull (sz : Nat) (vs : List Vec) : VOp → Bool
  | .newRange [] => true
  | .copy j => vs[j]?.any fun o => o.beg ≠ 0 && o.size sz = 0
  | .copyAssign _ j => vs[j]?.any fun o => o.size sz = 0
  | .pushRange i [] => vs[i]?.any fun v => v.beg = 0
  | .pushFrom i j _ 0 => vs[i]?.any (fun v => v.beg = 0) || vs[j]?.any fun o => o.beg = 0
  | .eraseRange i _ _ => vs[i]?.any fun v => v.beg = 0
  | _ => false

/-- Likewise for arrays: also `resize(0)` and the assignment of an empty range. -/
def ArrOp.mayPassNull (sz : Nat) (vs : List Arr) : ArrOp → Bool
  | .newRange [] | .resize _ 0 | .assign _ [] | .assignFrom _ _ _ 0 => true
  | .copy j => vs[j]?.any fun o => o.beg ≠ 0 && o.size sz = 0
  | .copyAssign _ j => vs[j]?.any fun o => o.size sz = 0
  | _ => false

/-! ### Proof -/

section
variable {sz T : Nat} {A : Allocator} {lax : Bool}

theorem pvstep_strict (hz : 0 < sz) (c : PVecs A) (o : VOp) (hc : ∀ p ∈ c.vs, p.Ok sz T) (hn : o.mayPassNull sz c.base.vs = false) :
    c.step lax sz o = c.step true sz o := by
  have hget := c.get
  have hmem : ∀ {i : Nat} {p : PVec}, c.vs[i]? = some p → ∃ k cap, p.Fits sz k cap := fun h => by
    obtain ⟨k, cap, h, _⟩ := hc _ (List.mem_of_getElem? h); exact ⟨k, cap, h⟩
  cases o with
  | new => rfl
  | newSize n => rfl
  | newFill n x => rfl
  | newRange xs =>
    cases xs with
    | nil => cases hn
    | cons x xs => simp only [PVecs.step]; rw [ofRange_strict (List.cons_ne_nil x xs ∘ List.length_eq_zero_iff.mp) (x := .val _) trivial]
  | copy j =>
    simp only [PVecs.step]
    simp only [VOp.mayPassNull, hget] at hn
    cases hj : c.vs[j]? with
    | none => rfl
    | some p =>
      obtain ⟨k, cap, hp⟩ := hmem hj
      simp only
      rw [copy_strict hz hp]
      intro hb
      rw [hj] at hn
      simp only [Option.map_some, Option.any_some, hp.size_eq hz] at hn
      simpa [hb] using hn
  | move j => rfl
  | copyAssign i j =>
    simp only [PVecs.step]
    split
    · rfl
    · rename_i hij
      simp only [VOp.mayPassNull, hget] at hn
      unfold PVecs.copyAssign
      cases hi : c.vs[i]? with
      | none => rfl
      | some v =>
        cases hj : c.vs[j]? with
        | none => rfl
        | some o =>
          obtain ⟨k, cap, hp⟩ := hmem hj
          rw [hj] at hn
          simp only [Option.map_some, Option.any_some, hp.size_eq hz, decide_eq_false_iff_not] at hn
          simp only [hp.size hz, pure_bind]
          refine bind_congr_ok fun w s w' _ => bind_congr_ok fun w1 r w2 hr => ?_
          have hj' : (c.vs.set i r.2)[j]? = some o := by rw [List.getElem?_set_ne hij]; exact hj
          have hb : o.v.beg ≠ 0 := fun e => hn (by have := hp.null e; have := hp.le; omega)
          simp only [hj']
          rw [memcpyP_ne (fun h => hn (ofSize_beg w1 r w2 hr h)) hb]
  | moveAssign i j => rfl
  | destroy i => rfl
  | push i x =>
    simp only [PVecs.step]
    cases hi : c.vs[i]? with
    | none => rfl
    | some v =>
      obtain ⟨k, cap, hp⟩ := hmem hi
      simp only
      rw [pushBack_strict hz hp]
  | pushRange i xs =>
    simp only [PVecs.step]
    cases hi : c.vs[i]? with
    | none => rfl
    | some v =>
      obtain ⟨k, cap, hp⟩ := hmem hi
      simp only
      rw [pushRange_strict hz hp (x := .val _) _ trivial]
      intro hb
      cases xs with
      | cons x xs => simp
      | nil => simp [VOp.mayPassNull, hget, hi, hb] at hn
  | pushFrom i j a n =>
    simp only [PVecs.step]
    cases hi : c.vs[i]? with
    | none => rfl
    | some v =>
      cases hj : c.vs[j]? with
      | none => rfl
      | some o =>
        obtain ⟨k, cap, hp⟩ := hmem hi
        obtain ⟨k', cap', hp'⟩ := hmem hj
        simp only
        split
        · rename_i hcond
          have hsz := hp'.size_eq hz
          have hle := hp'.le
          have hb : o.v.beg ≠ 0 := fun e => by
            have h0 := hp'.null e
            obtain rfl : n = 0 := by omega
            simp [VOp.mayPassNull, hget, hj, e] at hn
          rw [pushRange_strict hz hp _ (show Arg.real (.ref (o.v.beg + a * sz)) from by show _ ≠ _; omega)]
          intro hv hn0
          subst hn0
          simp [VOp.mayPassNull, hget, hi, hv] at hn
        · rfl
  | erase i k =>
    simp only [PVecs.step]
    cases hi : c.vs[i]? with
    | none => rfl
    | some v =>
      obtain ⟨k', cap, hp⟩ := hmem hi
      simp only
      split
      · rename_i hcond
        have hsz := hp.size_eq hz
        have hle := hp.le
        have hb : v.v.beg ≠ 0 := fun e => by have h0 := hp.null e; omega
        rw [erase_strict (by omega)]
      · rfl
  | eraseRange i a n =>
    simp only [PVecs.step]
    cases hi : c.vs[i]? with
    | none => rfl
    | some v =>
      have hb : v.v.beg ≠ 0 := fun e => by simp [VOp.mayPassNull, hget, hi, e] at hn
      simp only
      rw [eraseRange_strict (by omega) (by omega)]
  | resize i n =>
    simp only [PVecs.step]
    cases hi : c.vs[i]? with
    | none => rfl
    | some v =>
      obtain ⟨k', cap, hp⟩ := hmem hi
      simp only
      rw [resize_strict hz hp]
  | reserve i n =>
    simp only [PVecs.step]
    cases hi : c.vs[i]? with
    | none => rfl
    | some v =>
      obtain ⟨k', cap, hp⟩ := hmem hi
      simp only
      rw [reserve_strict hz hp]
  | clear i => rfl
  | write i k x => rfl
  | read i k => rfl

theorem pastep_strict (hz : 0 < sz) (c : PArrs A) (o : ArrOp) (hc : ∀ p ∈ c.vs, p.Ok sz T) (hn : o.mayPassNull sz c.base.vs = false) :
    c.step lax sz o = c.step true sz o := by
  have hget := c.get
  have hmem : ∀ {i : Nat} {p : PArr}, c.vs[i]? = some p → ∃ k, p.Fits sz k := fun h => by
    obtain ⟨k, h, _⟩ := hc _ (List.mem_of_getElem? h); exact ⟨k, h⟩
  cases o with
  | new => rfl
  | newSize n => rfl
  | newFill n x => rfl
  | newRange xs =>
    cases xs with
    | nil => cases hn
    | cons x xs => simp only [PArrs.step]; rw [aofRange_strict (List.cons_ne_nil x xs ∘ List.length_eq_zero_iff.mp) (x := .val _) trivial]
  | copy j =>
    simp only [PArrs.step]
    simp only [ArrOp.mayPassNull, hget] at hn
    cases hj : c.vs[j]? with
    | none => rfl
    | some p =>
      obtain ⟨k, hp⟩ := hmem hj
      simp only
      rw [acopy_strict hz hp]
      intro hb
      rw [hj] at hn
      simp only [Option.map_some, Option.any_some, hp.size_eq hz] at hn
      simpa [hb] using hn
  | move j => rfl
  | copyAssign i j =>
    simp only [PArrs.step]
    split
    · rfl
    · rename_i hij
      simp only [ArrOp.mayPassNull, hget] at hn
      unfold PArrs.copyAssign
      cases hi : c.vs[i]? with
      | none => rfl
      | some v =>
        cases hj : c.vs[j]? with
        | none => rfl
        | some o =>
          obtain ⟨k, hp⟩ := hmem hj
          rw [hj] at hn
          simp only [Option.map_some, Option.any_some, hp.size_eq hz, decide_eq_false_iff_not] at hn
          simp only [hp.size hz, pure_bind]
          refine bind_congr_ok fun w s w' _ => bind_congr_ok fun w1 r w2 hr => ?_
          have hj' : (c.vs.set i r.2)[j]? = some o := by rw [List.getElem?_set_ne hij]; exact hj
          have hb : o.v.beg ≠ 0 := fun e => hn (hp.null e)
          simp only [hj']
          rw [memcpyP_ne (fun h => hn (aofSize_beg w1 r w2 hr h)) hb]
  | moveAssign i j => rfl
  | destroy i => rfl
  | resize i n =>
    simp only [PArrs.step]
    cases hi : c.vs[i]? with
    | none => rfl
    | some v =>
      simp only
      rw [aresize_strict]
      rintro rfl
      cases hn
  | assign i xs =>
    simp only [PArrs.step]
    cases hi : c.vs[i]? with
    | none => rfl
    | some v =>
      obtain ⟨k, hp⟩ := hmem hi
      simp only
      cases xs with
      | nil => cases hn
      | cons x xs => rw [assign_strict hz hp (List.cons_ne_nil x xs ∘ List.length_eq_zero_iff.mp) (x := .val _) trivial]
  | assignFrom i j a n =>
    simp only [PArrs.step]
    cases hi : c.vs[i]? with
    | none => rfl
    | some v =>
      cases hj : c.vs[j]? with
      | none => rfl
      | some o =>
        obtain ⟨k, hp⟩ := hmem hi
        obtain ⟨k', hp'⟩ := hmem hj
        simp only
        have hn0 : n ≠ 0 := by rintro rfl; cases hn
        split
        · rename_i hcond
          have hsz := hp'.size_eq hz
          have hb : o.v.beg ≠ 0 := fun e => by have := hp'.null e; omega
          rw [assign_strict hz hp hn0 (show Arg.real (.ref (o.v.beg + a * sz)) from by show _ ≠ _; omega)]
        · rfl
  | write i k x => rfl
  | read i k => rfl
end

/-! ### The properties -/

/-- **C91, vectors.** All pointers a program with vectors makes the library compute — `m_Begin + n`, `m_End++`, `m_End -= …`, `iter + 1` and so
on, `m_End - m_Begin` and the like — stay inside the array that `allocate` returned or at its end, for every program, every composition of
allocators and every behaviour of malloc: with the rule checked at every step, the program does what it does without. The null pointer is
accepted by `memcpy` and `memmove` here (`lax`). -/
theorem C91_vector_pointers_in_range (sys : Sys) (t : AllocTy) (hwf : t.WF) (b : Nat) (w : World) (hs : Storage w b t.size)
    (sz : Nat) (hz : 0 < sz) (ops : List VOp) (hops : VSane t sz ops) :
    match pvplay true sz (t.denote sys) b ops w with
    | .ok c w' => vplay sz (t.denote sys) b ops w = .ok c.base w' ∧ ∀ p ∈ c.vs, p.v.beg ≤ p.v.fin ∧ p.v.fin ≤ p.v.max ∧ p.v.max = p.top
    | .oom w' => vplay sz (t.denote sys) b ops w = .oom w' ∧ w'.failed = true
    | .ub => False := by
  have h1 := C42_vector_is_sequence sys t hwf b w hs sz hz ops hops
  have hW : ∀ m, m ≤ 2 * weights ops → sz * m < W64 := fun m hm => by
    have := hops.1
    have := Nat.mul_le_mul_left sz hm
    show _ < 2 ^ 64
    omega
  have h2 : AgreeOn (PVecs.Rel sz (weights ops)) (pvplay true sz (t.denote sys) b ops) (vplay sz (t.denote sys) b ops) :=
    AgreeOn.same _ fun s => pvrun hz (weights ops) hW ops 0 { st := s, vs := [] } (fun p hp => by simp at hp) (by omega)
  have h3 := h2 w
  cases hv : vplay sz (t.denote sys) b ops w with
  | ub => rw [hv] at h1; exact h1.elim
  | oom w' => rw [hv] at h3 h1; rw [h3]; exact ⟨rfl, h1⟩
  | ok c w' =>
    rw [hv] at h3
    obtain ⟨a, e, rfl, hok⟩ := h3
    rw [e]
    refine ⟨rfl, fun p hp => ?_⟩
    obtain ⟨k, cap, hf, _⟩ := hok p hp
    have := Nat.mul_le_mul_right sz hf.le
    rw [hf.fin, hf.max, hf.top]
    omega

/-- **C91, arrays.** -/
theorem C91_array_pointers_in_range (sys : Sys) (t : AllocTy) (hwf : t.WF) (b : Nat) (w : World) (hs : Storage w b t.size)
    (sz : Nat) (hz : 0 < sz) (ops : List ArrOp) (hops : ASane t sz ops) :
    match paplay true sz (t.denote sys) b ops w with
    | .ok c w' => aplay sz (t.denote sys) b ops w = .ok c.base w' ∧ ∀ p ∈ c.vs, p.v.beg ≤ p.v.fin ∧ p.v.fin = p.top
    | .oom w' => aplay sz (t.denote sys) b ops w = .oom w' ∧ w'.failed = true
    | .ub => False := by
  have h1 := C49_array_is_sequence sys t hwf b w hs sz hz ops hops
  have hW : ∀ m, m ≤ aweights ops → sz * m < W64 := fun m hm => by
    have := hops.1
    have := Nat.mul_le_mul_left sz (Nat.le_trans hm (show aweights ops ≤ 2 * aweights ops by omega))
    show _ < 2 ^ 64
    omega
  have h2 : AgreeOn (PArrs.Rel sz (aweights ops)) (paplay true sz (t.denote sys) b ops) (aplay sz (t.denote sys) b ops) :=
    AgreeOn.same _ fun s => parun hz (aweights ops) hW ops 0 { st := s, vs := [] } (fun p hp => by simp at hp) (by omega)
  have h3 := h2 w
  cases hv : aplay sz (t.denote sys) b ops w with
  | ub => rw [hv] at h1; exact h1.elim
  | oom w' => rw [hv] at h3 h1; rw [h3]; exact ⟨rfl, h1⟩
  | ok c w' =>
    rw [hv] at h3
    obtain ⟨a, e, rfl, hok⟩ := h3
    rw [e]
    refine ⟨rfl, fun p hp => ?_⟩
    obtain ⟨k, hf, _⟩ := hok p hp
    rw [hf.fin, hf.top]
    omega

/-- **C91, null pointers (partial).** In every state a program can reach, the next call passes no null pointer to `memcpy` or `memmove`,
unless it is one of those listed in `VOp.mayPassNull`: forbidding it changes nothing. -/
theorem C91_vector_no_null_partial (sys : Sys) (t : AllocTy) (b : Nat) (w : World) (sz : Nat) (hz : 0 < sz) (ops : List VOp)
    (hops : sz * (2 * weights ops) < 2 ^ 64) (c : PVecs (t.denote sys)) (w' : World) (d : Vecs (t.denote sys)) (hd : vplay sz (t.denote sys) b ops w = .ok d w')
    (hrun : pvplay true sz (t.denote sys) b ops w = .ok c w') (o : VOp) (ho : o.mayPassNull sz d.vs = false) :
    c.step false sz o = c.step true sz o := by
  have hW : ∀ m, m ≤ 2 * weights ops → sz * m < W64 := fun m hm => by
    have := Nat.mul_le_mul_left sz hm
    show _ < 2 ^ 64
    omega
  have h2 : AgreeOn (PVecs.Rel sz (weights ops)) (pvplay true sz (t.denote sys) b ops) (vplay sz (t.denote sys) b ops) :=
    AgreeOn.same _ fun s => pvrun hz (weights ops) hW ops 0 { st := s, vs := [] } (fun p hp => by simp at hp) (by omega)
  have h3 := h2 w
  rw [hd, hrun] at h3
  obtain ⟨a, e, rfl, hok⟩ := h3
  cases e
  exact pvstep_strict hz c o hok ho

/-- **C91, null pointers (partial)**, arrays. -/
theorem C91_array_no_null_partial (sys : Sys) (t : AllocTy) (b : Nat) (w : World) (sz : Nat) (hz : 0 < sz) (ops : List ArrOp)
    (hops : sz * aweights ops < 2 ^ 64) (c : PArrs (t.denote sys)) (w' : World) (d : Arrs (t.denote sys)) (hd : aplay sz (t.denote sys) b ops w = .ok d w')
    (hrun : paplay true sz (t.denote sys) b ops w = .ok c w') (o : ArrOp) (ho : o.mayPassNull sz d.vs = false) :
    c.step false sz o = c.step true sz o := by
  have hW : ∀ m, m ≤ aweights ops → sz * m < W64 := fun m hm => by
    have := Nat.mul_le_mul_left sz hm
    show _ < 2 ^ 64
    omega
  have h2 : AgreeOn (PArrs.Rel sz (aweights ops)) (paplay true sz (t.denote sys) b ops) (aplay sz (t.denote sys) b ops) :=
    AgreeOn.same _ fun s => parun hz (aweights ops) hW ops 0 { st := s, vs := [] } (fun p hp => by simp at hp) (by omega)
  have h3 := h2 w
  rw [hd, hrun] at h3
  obtain ⟨a, e, rfl, hok⟩ := h3
  cases e
  exact pastep_strict hz c o hok ho

/-- **C91 is false**: assigning a vector that has never held anything passes the null pointer to `memcpy` — for every allocator, every state
and every memory; a call that would otherwise return is undefined behaviour. -/
theorem C91_copy_assign_false {A : Allocator} (sz : Nat) (c : PVecs A) (i j : Nat) (hij : i ≠ j) (hi : i < c.vs.length) (hj : c.vs[j]? = some PVec.null)
    (w : World) (c' : PVecs A) (w' : World) (h : c.step true sz (.copyAssign i j) w = .ok c' w') : c.step false sz (.copyAssign i j) w = .ub := by
  obtain ⟨v, hv⟩ : ∃ v, c.vs[i]? = some v := ⟨_, List.getElem?_eq_getElem hi⟩
  simp only [PVecs.step, if_neg hij] at h ⊢
  unfold PVecs.copyAssign at h ⊢
  simp only [hv, hj] at h ⊢
  obtain ⟨s, w1, h1, h⟩ := bind_ok h
  obtain ⟨n, w2, h2, h⟩ := bind_ok h
  obtain ⟨r, w3, h3, h⟩ := bind_ok h
  rw [bind_of_ok h1, bind_of_ok h2, bind_of_ok h3]
  have hj' : (c.vs.set i r.2)[j]? = some PVec.null := by rw [List.getElem?_set_ne hij]; exact hj
  simp only [hj']
  rw [M.bind_apply, M.memcpyP]
  simp [PVec.null, Vec.null, M.ub]

/-- The same for arrays. -/
theorem C91_array_copy_assign_false {A : Allocator} (sz : Nat) (c : PArrs A) (i j : Nat) (hij : i ≠ j) (hi : i < c.vs.length) (hj : c.vs[j]? = some PArr.null)
    (w : World) (c' : PArrs A) (w' : World) (h : c.step true sz (.copyAssign i j) w = .ok c' w') : c.step false sz (.copyAssign i j) w = .ub := by
  obtain ⟨v, hv⟩ : ∃ v, c.vs[i]? = some v := ⟨_, List.getElem?_eq_getElem hi⟩
  simp only [PArrs.step, if_neg hij] at h ⊢
  unfold PArrs.copyAssign at h ⊢
  simp only [hv, hj] at h ⊢
  obtain ⟨s, w1, h1, h⟩ := bind_ok h
  obtain ⟨n, w2, h2, h⟩ := bind_ok h
  obtain ⟨r, w3, h3, h⟩ := bind_ok h
  rw [bind_of_ok h1, bind_of_ok h2, bind_of_ok h3]
  have hj' : (c.vs.set i r.2)[j]? = some PArr.null := by rw [List.getElem?_set_ne hij]; exact hj
  simp only [hj']
  rw [M.bind_apply, M.memcpyP]
  simp [PArr.null, Arr.null, M.ub]

/-- `erase(begin(), end())` on a vector that has never held anything passes the null pointer to `memmove`. -/
theorem C91_erase_false {A : Allocator} (sz : Nat) (c : PVecs A) (i : Nat) (hi : c.vs[i]? = some PVec.null) (w : World) :
    c.step false sz (.eraseRange i 0 0) w = .ub := by
  simp only [PVecs.step, hi]
  rw [if_pos (Nat.zero_le _)]
  have e : PVec.null.elem sz 0 = pure () := elem_in (by simp [PVec.null, Vec.null])
  simp only [PVec.null, Vec.null, Nat.zero_add, Nat.zero_mul, Nat.add_zero] at e ⊢
  rw [e]
  rfl

/-- Appending an empty range to such a vector passes it to `memcpy`. -/
theorem C91_push_false {A : Allocator} (sz : Nat) (c : PVecs A) (i : Nat) (hi : c.vs[i]? = some PVec.null) (w : World) :
    c.step false sz (.pushRange i []) w = .ub := by
  simp only [PVecs.step, hi]
  rw [if_pos (by simp)]
  have e : PVec.null.elem sz 0 = pure () := elem_in (by simp [PVec.null, Vec.null])
  unfold PVec.pushRange
  simp only [PVec.null, Vec.null, Nat.zero_add, Nat.zero_mul, Nat.add_zero, List.length_nil, Nat.not_lt_zero, if_false] at e ⊢
  simp only [e, pure_bind]
  rfl

example : VSane demoTy 8 [.new, .push 0 [1, 2, 3, 4, 5, 6, 7, 8], .pushRange 0 [[0, 0, 0, 0, 0, 0, 0, 1]], .erase 0 0, .resize 0 9, .move 0] := by
  refine ⟨by decide, ?_⟩
  rintro ⟨o, ho, h⟩
  revert h
  simp only [List.mem_cons, List.not_mem_nil, or_false] at ho
  rcases ho with rfl | rfl | rfl | rfl | rfl | rfl <;> decide

/-- A program that returns with the checks; its last call is not in the list, so it passes no null pointer either. -/
example : ((pvplay true 2 (mallocator (demoSys .direct)) 4096 [.newRange [[1, 2], [3, 4]], .push 0 [5, 6], .erase 0 0, .copy 0, .reserve 1 9] (demoWorld 0)).test
    fun c _ => decide (c.vs.map (fun p => p.v.size 2) = [2, 2] ∧ (VOp.copyAssign 0 1).mayPassNull 2 c.base.vs = false)) = true := by
  decide +kernel

example : ((paplay true 2 (mallocator (demoSys .direct)) 4096 [.newRange [[1, 2], [3, 4]], .resize 0 3, .copy 0] (demoWorld 0)).test
    fun c _ => decide (c.vs.map (fun p => p.v.size 2) = [3, 3] ∧ (ArrOp.copyAssign 0 1).mayPassNull 2 c.base.vs = false)) = true := by
  decide +kernel

/-- `trivial_vector<T> a(2), b; a = b;` -/
example : ((pvplay true 2 (mallocator (demoSys .direct)) 4096 [.newSize 2, .new, .copyAssign 0 1] (demoWorld 0)).test fun c _ => c.vs.length == 2) = true ∧
    (pvplay false 2 (mallocator (demoSys .direct)) 4096 [.newSize 2, .new, .copyAssign 0 1] (demoWorld 0)).isUB = true := by
  constructor <;> decide +kernel

example : ((paplay true 2 (mallocator (demoSys .direct)) 4096 [.newSize 2, .new, .copyAssign 0 1] (demoWorld 0)).test fun c _ => c.vs.length == 2) = true ∧
    (paplay false 2 (mallocator (demoSys .direct)) 4096 [.newSize 2, .new, .copyAssign 0 1] (demoWorld 0)).isUB = true := by
  constructor <;> decide +kernel

end KTL

import Verif.Containers.Iterate
import Verif.Props.Array
import Verif.Props.BinaryHeap
import Verif.Props.Reports
import Verif.Props.Buffer

/- C82: loops over containers. -/
namespace KTL

/-! ### The loops -/

theorem loopUp_ok {β : Type} {rd : Nat → M β} {sz : Nat} (hz : 0 < sz) {w : World} (xs : List β) (p e : Nat) (he : e = p + xs.length * sz)
    (h : ∀ (k : Nat) x, xs[k]? = some x → rd (p + k * sz) w = .ok x w) : loopUp rd sz e p w = .ok xs w := by
  induction xs generalizing p with
  | nil =>
    rw [loopUp, if_pos (by rw [he]; simp)]; rfl
  | cons x xs ih =>
    have hl : (x :: xs).length * sz = xs.length * sz + sz := by rw [List.length_cons, Nat.succ_mul]
    rw [loopUp, if_neg (by rw [he, hl]; omega)]
    have h0 := h 0 x rfl
    rw [Nat.zero_mul, Nat.add_zero] at h0
    rw [bind_of_ok h0]
    have := ih (p + sz) (by rw [he, hl]; omega) (fun k y hk => by
      have := h (k + 1) y (by simpa using hk)
      rw [Nat.succ_mul, show p + (k * sz + sz) = p + sz + k * sz by omega] at this
      exact this)
    rw [bind_of_ok this]; rfl

theorem loopDown_ok' {β : Type} {rd : Nat → M β} {sz : Nat} (hz : 0 < sz) {w : World} (ys : List β) (p e : Nat) (hp : p = e + ys.length * sz)
    (h : ∀ (k : Nat) x, ys[k]? = some x → rd (e + (ys.length - 1 - k) * sz) w = .ok x w) : loopDown rd sz e p w = .ok ys w := by
  induction ys generalizing p with
  | nil =>
    rw [loopDown, if_pos (by rw [hp]; simp)]; rfl
  | cons x ys ih =>
    have hl : (x :: ys).length * sz = ys.length * sz + sz := by rw [List.length_cons, Nat.succ_mul]
    rw [loopDown, if_neg (by rw [hp, hl]; omega)]
    have h0 := h 0 x rfl
    rw [List.length_cons, Nat.add_sub_cancel, Nat.sub_zero] at h0
    have e0 : p - sz = e + ys.length * sz := by rw [hp, hl]; omega
    rw [e0, bind_of_ok h0]
    have := ih (e + ys.length * sz) rfl (fun k y hk => by
      have := h (k + 1) y (by simpa using hk)
      rw [List.length_cons, show ys.length + 1 - 1 - (k + 1) = ys.length - 1 - k by omega] at this
      exact this)
    rw [bind_of_ok this]; rfl

theorem loopDown_ok {β : Type} {rd : Nat → M β} {sz : Nat} (hz : 0 < sz) {w : World} (xs : List β) (p e : Nat) (hp : p = e + xs.length * sz)
    (h : ∀ (k : Nat) x, xs[k]? = some x → rd (e + k * sz) w = .ok x w) : loopDown rd sz e p w = .ok xs.reverse w := by
  refine loopDown_ok' hz xs.reverse p e (by rw [List.length_reverse]; exact hp) fun k x hk => ?_
  have hlt : k < xs.length := by have := (List.getElem?_eq_some_iff.1 hk).1; simpa using this
  rw [List.getElem?_reverse hlt] at hk
  rw [List.length_reverse]
  exact h _ x hk

/-- The bytes of elements at `p`. -/
def ElemsAt (w : World) (sz p : Nat) (xs : List (List UInt8)) : Prop :=
  ∀ (k : Nat) (e : List UInt8), xs[k]? = some e → e.length = sz ∧ ∀ j, j < sz → w.heap.b (p + k * sz + j) = e[j]?

theorem ElemsAt.read {w : World} {sz p : Nat} {xs : List (List UInt8)} (h : ElemsAt w sz p xs) (k : Nat) (x : List UInt8) (hk : xs[k]? = some x) :
    M.readBytes (p + k * sz) sz w = .ok x w := by
  obtain ⟨h1, h2⟩ := h k x hk
  have := readBytes_at (w := w) (p := p + k * sz) (bs := x) (fun j hj => h2 j (by omega))
  rwa [h1] at this

theorem loopMap_ok {f : List UInt8 → List UInt8} {sz : Nat} (hz : 0 < sz) (hf : ∀ x, x.length = sz → (f x).length = sz) (xs : List (List UInt8))
    (w : World) (p e : Nat) (he : e = p + xs.length * sz) (h : ElemsAt w sz p xs) :
    ∃ w', loopMap f sz e p w = .ok () w' ∧ ElemsAt w' sz p (xs.map f) ∧ ∀ a, ¬ (p ≤ a ∧ a < e) → w'.heap.b a = w.heap.b a := by
  induction xs generalizing p w with
  | nil =>
    refine ⟨w, ?_, fun k e hk => by simp at hk, fun _ _ => rfl⟩
    rw [loopMap, if_pos (by rw [he]; simp)]; rfl
  | cons x xs ih =>
    have hl : (x :: xs).length * sz = xs.length * sz + sz := by rw [List.length_cons, Nat.succ_mul]
    obtain ⟨hx, hx'⟩ := h 0 x rfl
    have h0 := h.read 0 x rfl
    rw [Nat.zero_mul, Nat.add_zero] at h0
    have hsome : ∀ j, j < (f x).length → (w.heap.b (p + j)).isSome = true := fun j hj => by
      rw [hf x hx] at hj
      have := hx' j hj
      rw [Nat.zero_mul, Nat.add_zero] at this
      rw [this, List.getElem?_eq_getElem (by omega)]; rfl
    have hw := writeBytes_at hsome
    obtain ⟨hfin1, hfin2⟩ := writeBytes_final _ _ _ _ _ hw
    have hst : ElemsAt (w.put p (f x)) sz (p + sz) xs := fun k y hk => by
      obtain ⟨h1, h2⟩ := h (k + 1) y (by simpa using hk)
      refine ⟨h1, fun j hj => ?_⟩
      have := h2 j hj
      rw [Nat.succ_mul] at this
      rw [hfin2 _ (.inr (by rw [hf x hx]; omega)), ← this]
      congr 1; omega
    obtain ⟨w', h1, h2, h3⟩ := ih (w.put p (f x)) (p + sz) (by rw [he, hl]; omega) hst
    refine ⟨w', ?_, ?_, fun a ha => ?_⟩
    · rw [loopMap, if_neg (by rw [he, hl]; omega), bind_of_ok h0, bind_of_ok hw, h1]
    · intro k y hk
      cases k with
      | zero =>
        simp only [List.map_cons, List.getElem?_cons_zero, Option.some.injEq] at hk
        subst hk
        refine ⟨hf x hx, fun j hj => ?_⟩
        rw [Nat.zero_mul, Nat.add_zero, h3 _ (by omega), hfin1 j (by rw [hf x hx]; exact hj), List.getElem?_eq_getElem]
      | succ k =>
        obtain ⟨h4, h5⟩ := h2 k y (by simpa using hk)
        refine ⟨h4, fun j hj => ?_⟩
        rw [← h5 j hj, Nat.succ_mul]
        congr 1; omega
    · rw [h3 a (by omega), hfin2 a (by rw [hf x hx, ] ; omega)]

/-! ### Containers -/

/-- What a program sees when it loops over a container with elements `xs`: forwards, backwards, and after assigning to every element. -/
structure Loops (w : World) (sz beg fin : Nat) (empty : Bool) (each reach : M (List (List UInt8)))
    (update : (List UInt8 → List UInt8) → M Unit) (xs : List (List UInt8)) : Prop where
  forwards : each w = .ok xs w
  backwards : reach w = .ok xs.reverse w
  isEmpty : empty = true ↔ xs = []
  assigns : ∀ f : List UInt8 → List UInt8, (∀ x, x.length = sz → (f x).length = sz) →
    ∃ w', update f w = .ok () w' ∧ each w' = .ok (xs.map f) w' ∧ ∀ a, ¬ (beg ≤ a ∧ a < fin) → w'.heap.b a = w.heap.b a

theorem loops_of_elemsAt {w : World} {sz beg fin : Nat} {xs : List (List UInt8)} (hz : 0 < sz) (hfin : fin = beg + xs.length * sz)
    (hst : ElemsAt w sz beg xs) :
    Loops w sz beg fin (decide (beg = fin)) (loopUp (M.readBytes · sz) sz fin beg) (loopDown (M.readBytes · sz) sz beg fin)
      (fun f => loopMap f sz fin beg) xs where
  forwards := loopUp_ok hz xs beg fin hfin hst.read
  backwards := loopDown_ok hz xs fin beg hfin hst.read
  isEmpty := by
    rw [decide_eq_true_iff, hfin, ← List.length_eq_zero_iff]
    constructor
    · intro h
      have : xs.length * sz = 0 := by omega
      rcases Nat.mul_eq_zero.1 this with h | h
      · exact h
      · omega
    · intro h; rw [h, Nat.zero_mul, Nat.add_zero]
  assigns f hf := by
    obtain ⟨w', h1, h2, h3⟩ := loopMap_ok hz hf xs w beg fin hfin hst
    exact ⟨w', h1, loopUp_ok hz _ beg fin (by rw [List.length_map]; exact hfin) h2.read, h3⟩

/-- **C82, vectors.** After any program with vectors, a loop over any of them with `begin()`, `end()` sees the elements of the sequence, each
once and in order; with `rbegin()`, `rend()` in reverse; assigning in a loop changes every element and no other byte; `empty()` tells whether
there are any. -/
theorem C82_vector_loops (sys : Sys) (t : AllocTy) (hwf : t.WF) (b : Nat) (w : World) (hs : Storage w b t.size)
    (sz : Nat) (hz : 0 < sz) (ops : List VOp) (hops : VSane t sz ops) (c : Vecs (t.denote sys)) (w' : World)
    (hrun : vplay sz (t.denote sys) b ops w = .ok c w') :
    ∃ S, Seqs.Run sz ⟨[], []⟩ ops S ∧ c.vs.length = S.xs.length ∧ ∀ (i : Nat) (v : Vec) (xs : List (List UInt8)), c.vs[i]? = some v → S.xs[i]? = some xs →
      Loops w' sz v.beg v.fin v.empty (v.each sz) (v.reach sz) (fun f => v.update sz f) xs := by
  have h1 := C42_vector_is_sequence sys t hwf b w hs sz hz ops hops
  rw [hrun] at h1
  obtain ⟨S, hS, _, hl, hv⟩ := h1
  have h2 := (C43_storage_disjoint sys t hwf b w hs sz hz ops hops c w' hrun).1
  refine ⟨S, hS, hl, fun i v xs hi hx => ?_⟩
  obtain ⟨h3, h4⟩ := hv i v xs hi hx
  have h5 := (h2 v (List.mem_of_getElem? hi)).2.1
  rw [h3] at h5
  exact loops_of_elemsAt hz h5 h4

/-- **C82, arrays.** -/
theorem C82_array_loops (sys : Sys) (t : AllocTy) (hwf : t.WF) (b : Nat) (w : World) (hs : Storage w b t.size)
    (sz : Nat) (hz : 0 < sz) (ops : List ArrOp) (hops : ASane t sz ops) (c : Arrs (t.denote sys)) (w' : World)
    (hrun : aplay sz (t.denote sys) b ops w = .ok c w') :
    ∃ S, Seqs.ARun sz ⟨[], []⟩ ops S ∧ c.vs.length = S.xs.length ∧ ∀ (i : Nat) (v : Arr) (xs : List (List UInt8)), c.vs[i]? = some v → S.xs[i]? = some xs →
      Loops w' sz v.beg v.fin v.empty (v.each sz) (v.reach sz) (fun f => v.update sz f) xs := by
  have h1 := C49_array_is_sequence sys t hwf b w hs sz hz ops hops
  rw [hrun] at h1
  obtain ⟨S, hS, _, hl, hv⟩ := h1
  obtain ⟨Γ, _, _, _, _, hΓ, hok, _⟩ := aplay_state sys t hwf (t.sound sys hwf) (t.objSize_eq sys) b w hs sz hz ops hops c w' hrun
  refine ⟨S, hS, hl, fun i v xs hi hx => ?_⟩
  obtain ⟨h3, h4⟩ := hv i v xs hi hx
  obtain ⟨g, hg, hgv⟩ := arr_mem hΓ hi
  have h5 := (hok g (List.mem_of_getElem? hg)).rep.fin
  rw [hgv] at h5
  have h6 : v.fin = v.beg + g.xs.length * sz := h5
  have h7 : g.xs.length = xs.length := by
    rw [← h3]; unfold Arr.size
    rw [h6, Nat.add_sub_cancel_left, Nat.mul_div_cancel _ hz]
  rw [h7] at h6
  exact loops_of_elemsAt hz h6 h4

/-- **C82, heaps.** A loop over a heap sees the elements of the bag, each once, beginning with the one `peek` returns; backwards it sees them in
the reverse order. -/
theorem C82_heap_loops {α : Type} (sys : Sys) (t : AllocTy) (hwf : t.WF) (b : Nat) (w : World) (hs : Storage w b t.size)
    (E : Elt α) (hE : E.Ok) (comp eq : α → α → Bool) (ops : List (BOp α)) (hops : HSane t E ops) (c : BHeaps (t.denote sys) α) (w' : World)
    (hrun : hplay E comp eq (t.denote sys) b ops w = .ok c w') :
    ∃ S, Bags.Run comp eq ⟨[], []⟩ ops S ∧ c.hs.length = S.xs.length ∧ ∀ (i : Nat) (h : BHeap) (xs : List α), c.hs[i]? = some h → S.xs[i]? = some xs →
      h.each E c.objs w' = .ok xs w' ∧ h.reach E c.objs w' = .ok xs.reverse w' ∧ (h.empty = true ↔ xs = []) := by
  have h1 := C52_heap_is_bag sys t hwf b w hs E hE comp eq ops hops
  rw [hrun] at h1
  obtain ⟨_, S, hS, _, hl, hv⟩ := h1
  refine ⟨S, hS, hl, fun i h xs hi hx => ?_⟩
  obtain ⟨h3, _, h4⟩ := hv i h xs hi hx
  refine ⟨loopUp_ok hE.pos xs _ _ (by rw [h3]) (fun k x hk => h4.read hE hk), loopDown_ok hE.pos xs _ _ (by rw [h3]) (fun k x hk => h4.read hE hk), ?_⟩
  unfold BHeap.empty
  rw [decide_eq_true_iff, h3, List.length_eq_zero_iff]

/-- **C82, buffers** of bytes (for other types `begin` and `end` do not compile). After any program with buffers, a loop over one of them sees
its elements, each once and in order, and so on. A buffer is never empty; it has no `empty()`. -/
theorem C82_buffer_loops (bs : List Buf) (hb : Laid 1 bs) (ops : List FOp) (hops : ∀ o ∈ ops, o.Sized 1) (xs : List (List (List UInt8))) (w : World)
    (h : AllStored 1 w bs xs) :
    ∃ w', frun 1 bs ops w = .ok (fspec xs ops).2 w' ∧ ∀ (i : Nat) (b : Buf) (ys : List (List UInt8)), bs[i]? = some b → (fspec xs ops).1[i]? = some ys →
      ys.length = b.n ∧ Loops w' 1 b.addr (b.addr + b.n) false b.each b.reach (fun f => b.update f) ys := by
  obtain ⟨w', h1, h2, _⟩ := C50_buffer_is_ring 1 (by omega) bs hb ops hops xs w h
  refine ⟨w', h1, fun i b ys hi hy => ?_⟩
  obtain ⟨h3, h4⟩ := h2.2 i b ys hi hy
  have hpos := hb.1 b (List.mem_of_getElem? hi)
  have L := loops_of_elemsAt (w := w') (sz := 1) (beg := b.addr) (fin := b.addr + b.n) (by omega) (by rw [h3]; omega) h4
  refine ⟨h3, L.forwards, L.backwards, ?_, L.assigns⟩
  constructor
  · nofun
  · rintro rfl; rw [List.length_nil] at h3; omega

/-! ### Programs that meet the hypotheses -/

/-- two buffers of bytes -/
example : Laid 1 [⟨4096, 3⟩, ⟨4099, 5⟩] ∧ (∀ o ∈ [FOp.fill 1 [1], .set 1 7 [3], .assign 0 1 1], o.Sized 1) ∧
    (fspec [List.replicate 3 [0], List.replicate 5 [0]] [.fill 1 [1], .set 1 7 [3], .assign 0 1 1]).1 = [[[1], [3], [1]], [[1], [1], [3], [1], [1]]] :=
  ⟨⟨by simp, by simp⟩, by simp [FOp.Sized], by decide⟩


/-- a vector with elements, one that was moved from, and an empty one with capacity -/
example : ((vplay 2 (mallocator (demoSys .direct)) 4096 [.new, .push 0 [1, 2], .push 0 [3, 4], .move 0, .copy 1, .clear 2] (demoWorld 0)).test fun c _ =>
    decide (c.vs.map (fun v => (v.size 2, v.empty)) = [(0, true), (2, false), (0, true)])) = true := by decide +kernel
/-- the loops -/
example (c : Vecs (mallocator (demoSys .direct))) (w : World) (h : vplay 2 (mallocator (demoSys .direct)) 4096 [.new, .push 0 [1, 2], .push 0 [3, 4]] (demoWorld 0) = .ok c w) :
    ∃ v, c.vs = [v] ∧ v.each 2 w = .ok [[1, 2], [3, 4]] w ∧ v.reach 2 w = .ok [[3, 4], [1, 2]] w ∧
      ∃ w', v.update 2 List.reverse w = .ok () w' ∧ v.each 2 w' = .ok [[2, 1], [4, 3]] w' := by
  obtain ⟨S, hS, hl, hv⟩ := C82_vector_loops (demoSys .direct) .mallocator trivial 4096 (demoWorld 0) (demoStorage 0 (by decide)) 2 (by decide) _
    ⟨by decide, fun _ => rfl⟩ c w h
  cases hS with | cons s1 hS =>
  cases hS with | cons s2 hS =>
  cases hS with | cons s3 hS =>
  cases hS
  simp only [Seqs.Step] at s1
  subst s1
  simp [Seqs.Step] at s2
  subst s2
  simp [Seqs.Step] at s3
  subst s3
  obtain ⟨v, hc⟩ := List.length_eq_one_iff.1 hl
  have L := hv 0 v _ (by rw [hc]; rfl) rfl
  obtain ⟨w', h1, h2, _⟩ := L.assigns List.reverse (fun x hx => by rw [List.length_reverse]; exact hx)
  exact ⟨v, hc, L.forwards, L.backwards, w', h1, h2⟩

end KTL

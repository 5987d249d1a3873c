import Verif.Props.Vector
import Verif.Props.Array
import Verif.Props.BinaryHeap
import Verif.Props.Buffer

/-! # C76: elements of containers are aligned for their type

Specification: an object of a type with alignment `al` may only live at a multiple of `al`; `al` divides the size of the type. The
library aligns every block to 16 bytes (`utility/alignment.h:7-17`), whatever the type. -/

namespace KTL

/-- the addresses of `n` elements of `sz` bytes from `p` on are fit for a type with alignment `al` -/
def PlacedFor (al sz p n : Nat) : Prop := ∀ k, k < n → (p + k * sz) % al = 0

/-! ### Proof -/

theorem placedFor_of {al sz p : Nat} (n : Nat) (ha : al ∣ 16) (hz : al ∣ sz) (hp : p % 16 = 0) : PlacedFor al sz p n := fun k _ =>
  Nat.mod_eq_zero_of_dvd (Nat.dvd_add (Nat.dvd_trans ha (Nat.dvd_of_mod_eq_zero hp)) (Nat.dvd_mul_left_of_dvd hz k))

theorem VInv.aligned {A : Allocator} {fA : Nat → Prop} {hA : Sound A fA} {b sz T : Nat} {c : Vecs A} {S : Seqs} {x : Heap}
    (h : VInv hA b sz T c S x) : ∀ v ∈ c.vs, v.beg % 16 = 0 := by
  obtain ⟨Γ, hv, _, _, hok, h1, h2, _, rfl, hI, _⟩ := h
  intro v hvm
  rw [hv] at hvm
  obtain ⟨g, hg, rfl⟩ := List.mem_map.1 hvm
  by_cases hb0 : g.v.beg = 0
  · rw [hb0]
  · exact (hA.live_good hI (p := g.v.beg) (n := g.full.length) (List.mem_map.2 ⟨(g.v.beg, g.full), List.mem_flatMap.2 ⟨g, hg, by
      unfold Ghost.own; rw [Vec.own_pos hb0]; simp⟩, rfl⟩)).1.2.1

theorem HInv.aligned {α : Type} {A : Allocator} {fA : Nat → Prop} {hA : Sound A fA} {b : Nat} {E : Elt α} {comp : α → α → Bool} {T : Nat}
    {ns : List Nat} {c : BHeaps A α} {S : Bags α} {x : Heap} (h : HInv hA b E comp T ns c S x) : ∀ v ∈ c.hs, v.beg % 16 = 0 := by
  obtain ⟨Γ, hv, _, _, _, hok, R, hm, _, _, h1, h2, _, rfl, hI, _⟩ := h
  intro v hvm
  rw [hv] at hvm
  obtain ⟨g, hg, rfl⟩ := List.mem_map.1 hvm
  by_cases hb0 : g.h.beg = 0
  · rw [hb0]
  · obtain ⟨bs, hbs, _⟩ := hm.mem (q := g.h.beg) (sl := live g.xs ++ g.rest) (List.mem_flatMap.2 ⟨g, hg, by rw [HGhost.own_pos hb0]; simp⟩)
    exact (hA.live_good hI (p := g.h.beg) (n := bs.length) (List.mem_map.2 ⟨(g.h.beg, bs), hbs, rfl⟩)).1.2.1

/-! ### The properties -/

/-- **C76, vectors.** After any program, over any allocator composition and any behaviour of malloc, every place of the storage of every
vector — elements and the room `push_back` constructs in — is aligned for a type whose alignment divides 16. -/
theorem C76_vector_elements_aligned_partial (sys : Sys) (t : AllocTy) (hwf : t.WF) (b : Nat) (w : World) (hs : Storage w b t.size)
    (sz : Nat) (hz : 0 < sz) (al : Nat) (hal : al ∣ 16) (hsz : al ∣ sz) (ops : List VOp) (hops : VSane t sz ops)
    (c : Vecs (t.denote sys)) (w' : World) (hrun : vplay sz (t.denote sys) b ops w = .ok c w') :
    ∀ v ∈ c.vs, PlacedFor al sz v.beg (v.capacity sz) := by
  obtain ⟨h0, hf, hd, he, hb, _⟩ := storage_split hs
  have hfit := hops.fits hwf hz sys.plat
  have := vplay_spec (t.sound sys hwf) b sz hz ops hfit.1 hfit.2 hs.1 hs.2.1 (by rw [t.objSize_eq]; exact hs.2.2.1) w h0 hf hd he
    (by rw [t.objSize_eq]; exact hb)
  rw [hrun] at this
  obtain ⟨⟨_, _, _, S, _, hI⟩, _⟩ := this
  exact fun v hv => placedFor_of _ hal hsz (hI.aligned v hv)

/-- **C76, arrays.** -/
theorem C76_array_elements_aligned_partial (sys : Sys) (t : AllocTy) (hwf : t.WF) (b : Nat) (w : World) (hs : Storage w b t.size)
    (sz : Nat) (hz : 0 < sz) (al : Nat) (hal : al ∣ 16) (hsz : al ∣ sz) (ops : List ArrOp) (hops : ASane t sz ops)
    (c : Arrs (t.denote sys)) (w' : World) (hrun : aplay sz (t.denote sys) b ops w = .ok c w') :
    ∀ v ∈ c.vs, PlacedFor al sz v.beg (v.size sz) := by
  obtain ⟨h0, hf, hd, he, hb, _⟩ := storage_split hs
  have hfit := hops.fits hwf hz sys.plat
  have := aplay_spec (t.sound sys hwf) b sz hz ops hfit.1 hfit.2 hs.1 hs.2.1 (by rw [t.objSize_eq]; exact hs.2.2.1) w h0 hf hd he
    (by rw [t.objSize_eq]; exact hb)
  rw [hrun] at this
  obtain ⟨⟨_, _, _, S, _, hI⟩, _⟩ := this
  exact fun v hv => placedFor_of _ hal hsz (VInv.aligned hI v.vec (List.mem_map.2 ⟨v, hv, rfl⟩))

/-- **C76, heaps.** -/
theorem C76_heap_elements_aligned_partial {α : Type} (sys : Sys) (t : AllocTy) (hwf : t.WF) (b : Nat) (w : World) (hs : Storage w b t.size)
    (E : Elt α) (hE : E.Ok) (al : Nat) (hal : al ∣ 16) (hsz : al ∣ E.size) (comp eq : α → α → Bool) (ops : List (BOp α)) (hops : HSane t E ops)
    (c : BHeaps (t.denote sys) α) (w' : World)
    (hrun : hplay E comp eq (t.denote sys) b ops w = .ok c w') :
    ∀ h ∈ c.hs, PlacedFor al E.size h.beg h.cap := by
  obtain ⟨S, ns, g, hf, _, _, _, hI, _⟩ := hplay_ok hwf (t.sound sys hwf) (t.objSize_eq sys) hs hE hops hrun
  exact fun v hv => placedFor_of _ hal hsz (hI.aligned v hv)

/-- Two vectors of two 16-byte elements each over `linear_allocator<80>`: the first starts at 4096, the second at 4128; each place is
fit for a type with alignment 16. -/
example : VSane (.linear 80) 16 [.new, .reserve 0 2, .new, .reserve 1 2] ∧ (AllocTy.linear 80).WF ∧
    ((vplay 16 ((AllocTy.linear 80).denote (demoSys .direct)) 4096 [.new, .reserve 0 2, .new, .reserve 1 2] (demoWorld 200)).test fun c _ =>
      decide (c.vs.map (fun v => (v.beg, v.capacity 16)) = [(4096, 2), (4128, 2)])) = true := by
  refine ⟨⟨by decide, ?_⟩, by decide, by decide +kernel⟩
  rintro ⟨o, ho, h⟩
  revert h
  simp only [List.mem_cons, List.not_mem_nil, or_false] at ho
  rcases ho with rfl | rfl | rfl | rfl <;> decide

/-- **C76 is false** for a type with `alignas(32)`: the library accepts it, and puts elements at addresses that are only multiples of
16. Here a vector of bytes and a vector of 32-byte elements share a `linear_allocator`: the first takes 16 bytes of it. -/
theorem C76_overaligned_false : ∃ (t : AllocTy) (n : Nat), t.WF ∧ Storage (demoWorld n) 4096 t.size ∧
    ((do
      let A := t.denote (demoSys .direct)
      let s ← A.init 4096
      let u ← Vec.ofFill 1 A s 1 (.val [7])
      let v ← Vec.ofFill 32 A u.1 1 (.val (List.replicate 32 0))
      pure (u.2, v.2)) (demoWorld n)).test (fun r _ => decide (r.1.beg = 4096 ∧ r.2.beg = 4112 ∧ r.2.size 32 = 1 ∧ r.2.beg % 32 ≠ 0)) = true :=
  ⟨.linear 80, (AllocTy.linear 80).size, by decide, demoStorage _ (by decide), by decide +kernel⟩

/-- `alignof(trivial_buffer<T, Size>)`: that of its only member, an array of `uint8_t` (`containers/trivial_buffer.h:150`), whatever `T` is -/
def Buf.alignof : Nat := 1

/-- where a compiler puts the next member of a struct whose members so far end at `off`. Specification, not code. -/
def nextMember (off al : Nat) : Nat := (off + al - 1) / al * al

/-- **C76 is false** for `trivial_buffer`: in `struct { char c; trivial_buffer<T, n> b; }`, with the struct itself placed as well as one
can wish, no element of `b` is aligned if `T` is of any alignment but 1. -/
theorem C76_buffer_false (al sz n a : Nat) (hal : 1 < al) (hsz : al ∣ sz) (ha : al ∣ a) (b : Buf)
    (hb : b = ⟨a + nextMember 1 Buf.alignof, n⟩) (i : Nat) (hn : 0 < n) (w : World) :
    ∃ p, b.elem sz i w = .ok p w ∧ p % al ≠ 0 := by
  subst hb
  refine ⟨a + nextMember 1 Buf.alignof + i % n * sz, by unfold Buf.elem; rw [if_neg (by show ¬ n = 0; omega)]; rfl, ?_⟩
  have h1 : nextMember 1 Buf.alignof = 1 := rfl
  rw [h1]
  obtain ⟨c, hc⟩ := Nat.dvd_add ha (Nat.dvd_mul_left_of_dvd hsz (i % n))
  rw [Nat.add_right_comm, hc, Nat.mul_add_mod, Nat.mod_eq_of_lt hal]
  omega

example : ∃ p, (Buf.mk (4096 + 1) 3).elem 4 5 (demoWorld 0) = .ok p (demoWorld 0) ∧ p % 4 ≠ 0 :=
  C76_buffer_false 4 4 3 4096 (by decide) (by decide) (by decide) _ rfl 5 (by decide) _

end KTL

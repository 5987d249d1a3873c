import Verif.Containers.Pointers
import Verif.Spec.Agree
import Verif.Props.Vector
import Verif.Props.Array

/- Programs with vectors and arrays do the same with the rules for pointers checked (proof machinery for C91). -/
namespace KTL

/-! ### Proof: vectors -/

theorem pure_bind_unit {α : Type} (k : Unit → M α) : ((pure () : M Unit) >>= k) = k () := rfl

theorem elem_in {lo hi sz p : Nat} (h : lo ≤ p ∧ p ≤ hi ∧ sz ∣ p - lo) : M.elem lo hi sz p = pure () := if_pos h

theorem elem_at {lo sz k n : Nat} (h : k ≤ n) : M.elem lo (lo + n * sz) sz (lo + k * sz) = pure () :=
  elem_in ⟨by omega, Nat.add_le_add_left (Nat.mul_le_mul_right _ h) _, by rw [Nat.add_sub_cancel_left]; exact Nat.dvd_mul_left ..⟩

theorem elems_at {lo sz n : Nat} : ∀ (m k : Nat), k + m ≤ n → M.elems lo (lo + n * sz) sz (lo + k * sz) m = pure ()
  | 0, _, _ => rfl
  | m + 1, k, h => by
    show (M.elem lo (lo + n * sz) sz (lo + k * sz + sz) >>= fun _ => M.elems lo (lo + n * sz) sz (lo + k * sz + sz) m) = _
    rw [show lo + k * sz + sz = lo + (k + 1) * sz by rw [Nat.succ_mul]; omega, elem_at (by omega)]
    exact elems_at m (k + 1) (by omega)

/-- the array of the vector is the block, the fields point into it. Proof helper, not code. -/
structure PVec.Fits (sz k cap : Nat) (p : PVec) : Prop where
  fin : p.v.fin = p.v.beg + k * sz
  max : p.v.max = p.v.beg + cap * sz
  top : p.top = p.v.beg + cap * sz
  le : k ≤ cap
  null : p.v.beg = 0 → cap = 0

namespace PVec.Fits
variable {sz k cap : Nat} {p : PVec}

theorem elem (h : p.Fits sz k cap) {j : Nat} (hj : j ≤ cap) : p.elem sz (p.v.beg + j * sz) = pure () := by
  unfold PVec.elem; rw [h.top]; exact elem_at hj

theorem size_eq (h : p.Fits sz k cap) (hz : 0 < sz) : p.v.size sz = k := by
  unfold Vec.size; rw [h.fin, Nat.add_sub_cancel_left, Nat.mul_div_cancel _ hz]

theorem cap_eq (h : p.Fits sz k cap) (hz : 0 < sz) : p.v.capacity sz = cap := by
  unfold Vec.capacity; rw [h.max, Nat.add_sub_cancel_left, Nat.mul_div_cancel _ hz]

theorem size (h : p.Fits sz k cap) (hz : 0 < sz) : p.size sz = pure k := by
  unfold PVec.size; rw [h.fin, h.elem h.le, h.size_eq hz]; rfl

theorem capacity (h : p.Fits sz k cap) (hz : 0 < sz) : p.capacity sz = pure cap := by
  unfold PVec.capacity; rw [h.max, h.elem (Nat.le_refl _), h.cap_eq hz]; rfl

theorem destroy (h : p.Fits sz k cap) (hz : 0 < sz) (A : Allocator) (s : A.St) : p.destroy sz A s = p.v.destroy sz A s := by
  unfold PVec.destroy Vec.destroy
  rw [h.capacity hz, h.cap_eq hz]; rfl
end PVec.Fits

/-- and size and capacity are bounded. Proof helper, not code. -/
def PVec.Ok (sz T : Nat) (p : PVec) : Prop := ∃ k cap, p.Fits sz k cap ∧ k ≤ T ∧ cap ≤ 2 * T

theorem PVec.Ok.mono {sz T T' : Nat} {p : PVec} (h : p.Ok sz T) (hT : T ≤ T') : p.Ok sz T' := by
  obtain ⟨k, cap, h, h1, h2⟩ := h; exact ⟨k, cap, h, by omega, by omega⟩

theorem PVec.null_fits {sz : Nat} : PVec.null.Fits sz 0 0 := ⟨by simp [PVec.null, Vec.null], by simp [PVec.null, Vec.null], by simp [PVec.null, Vec.null], Nat.le_refl _, fun _ => rfl⟩

theorem grab_null_zero {sz : Nat} {A : Allocator} {s : A.St} {n : Nat} (w : World) (r : Nat × A.St) (w' : World) (h : grab sz A s n w = .ok r w') : r.1 = 0 → n = 0 := by
  unfold grab at h
  obtain ⟨a, w1, _, h2⟩ := bind_ok h
  split at h2
  · cases h2
  · rename_i hc
    cases h2
    intro h0
    exact Classical.byContradiction fun hn => hc ⟨h0, hn⟩

theorem memcpyP_lax (d s n : Nat) : M.memcpyP true d s n = M.memcpy d s n := if_neg (by simp)
theorem memmoveP_lax (d s n : Nat) : M.memmoveP true d s n = M.memmove d s n := if_neg (by simp)
theorem copyP_lax (x : Arg) (d n : Nat) : x.copyPtr true d n = x.copy d n := by
  cases x
  · unfold Arg.copyPtr Arg.copy; simp
  · exact memcpyP_lax ..

/-- the results of two functions that return the allocator and the vector -/
def VRel (sz T : Nat) {S : Type} (a : S × PVec) (b : S × Vec) : Prop := a.1 = b.1 ∧ a.2.v = b.2 ∧ a.2.Ok sz T

section
variable {sz : Nat} {A : Allocator} {s : A.St} {T : Nat}

theorem mulW_eq {n : Nat} (h : sz * n < W64) : mulW sz n = n * sz := by rw [Nat.mul_comm]; exact Nat.mod_eq_of_lt h

theorem ofSize_agree (n : Nat) (hn : sz * n < W64) :
    AgreeOn (fun (a : A.St × PVec) (b : A.St × Vec) => a.1 = b.1 ∧ a.2.v = b.2 ∧ a.2.Fits sz n n) (PVec.ofSize sz A s n) (Vec.ofSize sz A s n) := by
  refine AgreeOn.same' _ _ (fun w r w' => grab_null_zero w r w') (fun r hr => ?_)
  rw [mulW_eq hn, elem_at (Nat.le_refl _)]
  exact AgreeOn.pure ⟨rfl, rfl, rfl, rfl, rfl, Nat.le_refl _, hr⟩

theorem ofFill_agree (n : Nat) (hn : sz * n < W64) (x : Arg) :
    AgreeOn (fun (a : A.St × PVec) (b : A.St × Vec) => a.1 = b.1 ∧ a.2.v = b.2 ∧ a.2.Fits sz n n) (PVec.ofFill sz A s n x) (Vec.ofFill sz A s n x) := by
  refine AgreeOn.bind (ofSize_agree n hn) (fun a b h => ?_)
  have he := elems_at (lo := a.2.v.beg) (sz := sz) (n := n) n 0 (by omega)
  rw [Nat.zero_mul, Nat.add_zero] at he
  rw [h.2.2.top, he, ← h.2.1]
  split
  · exact AgreeOn.same _ fun _ => AgreeOn.same _ fun _ => AgreeOn.pure h
  · exact AgreeOn.same _ fun _ => AgreeOn.same _ fun _ => AgreeOn.pure h

theorem ofRange_agree (n : Nat) (hn : sz * n < W64) (x : Arg) :
    AgreeOn (fun (a : A.St × PVec) (b : A.St × Vec) => a.1 = b.1 ∧ a.2.v = b.2 ∧ a.2.Fits sz n n) (PVec.ofRange true sz A s n x) (Vec.ofRange sz A s n x) := by
  refine AgreeOn.bind (ofSize_agree n hn) (fun a b h => ?_)
  rw [copyP_lax, h.2.1]
  exact AgreeOn.same _ fun _ => AgreeOn.pure h

theorem copy_agree (hz : 0 < sz) {o : PVec} {k cap : Nat} (ho : o.Fits sz k cap) (hn : sz * k < W64) :
    AgreeOn (fun (a : A.St × PVec) (b : A.St × Vec) => a.1 = b.1 ∧ a.2.v = b.2 ∧ a.2.Fits sz k k) (PVec.copy true sz A s o) (Vec.copy sz A s o.v) := by
  unfold PVec.copy Vec.copy
  rw [ho.size hz, ho.size_eq hz, pure_bind]
  refine AgreeOn.bind (ofSize_agree k hn) (fun a b h => ?_)
  rw [memcpyP_lax, h.2.1]
  split
  · exact AgreeOn.same _ fun _ => AgreeOn.pure h
  · exact AgreeOn.pure h

theorem setSize_agree (hz : 0 < sz) {p : PVec} {k cap : Nat} (hp : p.Fits sz k cap) (n : Nat) (hn : sz * n < W64) :
    AgreeOn (fun (a : A.St × PVec) (b : A.St × Vec) => a.1 = b.1 ∧ a.2.v = b.2 ∧ a.2.Fits sz (Min.min k n) n)
      (PVec.setSize true sz A s p n) (Vec.setSize sz A s p.v n) := by
  unfold PVec.setSize Vec.setSize
  rw [hp.size hz, hp.size_eq hz, hp.capacity hz, hp.cap_eq hz]
  refine AgreeOn.same' _ _ (fun w r w' => grab_null_zero w r w') (fun r hr => ?_)
  rw [memcpyP_lax, mulW_eq hn, elem_at (Nat.min_le_right ..), elem_at (Nat.le_refl _)]
  have fin : ∀ s' : A.St, AgreeOn (fun (a : A.St × PVec) (b : A.St × Vec) => a.1 = b.1 ∧ a.2.v = b.2 ∧ a.2.Fits sz (Min.min k n) n)
      (pure (s', ⟨⟨r.1, r.1 + Min.min k n * sz, r.1 + n * sz⟩, r.1 + n * sz⟩)) (pure (s', ⟨r.1, r.1 + Min.min k n * sz, r.1 + n * sz⟩)) :=
    fun s' => AgreeOn.pure ⟨rfl, rfl, rfl, rfl, rfl, Nat.min_le_right .., hr⟩
  split
  · exact AgreeOn.same _ fun _ => AgreeOn.same _ fun s' => fin s'
  · exact fin _

theorem expand_agree (hz : 0 < sz) {p : PVec} {k cap : Nat} (hp : p.Fits sz k cap) (n : Nat) (hn : sz * (cap + Max.max (cap / 2) n) < W64) :
    AgreeOn (fun (a : A.St × PVec) (b : A.St × Vec) => a.1 = b.1 ∧ a.2.v = b.2 ∧ a.2.Fits sz k (cap + Max.max (cap / 2) n))
      (PVec.expand true sz A s p n) (Vec.expand sz A s p.v n) := by
  unfold PVec.expand Vec.expand
  rw [hp.capacity hz, hp.cap_eq hz]
  refine (setSize_agree hz hp _ hn).mono fun a b h => ?_
  rw [Nat.min_eq_left (by have := hp.le; omega)] at h
  exact h

theorem resize_agree (hz : 0 < sz) {p : PVec} {k cap : Nat} (hp : p.Fits sz k cap) (n : Nat) (hk : k ≤ T) (hc : cap ≤ 2 * T)
    (hW : ∀ m, m ≤ 2 * (T + n) → sz * m < W64) :
    AgreeOn (VRel sz (T + n)) (PVec.resize true sz A s p n) (Vec.resize sz A s p.v n) := by
  unfold PVec.resize Vec.resize
  rw [hp.capacity hz, hp.cap_eq hz, pure_bind]
  have tail : ∀ (a : A.St × PVec) (b : A.St × Vec) (cap' : Nat), (a.1 = b.1 ∧ a.2.v = b.2 ∧ a.2.Fits sz k cap') → n ≤ cap' → cap' ≤ 2 * (T + n) →
      AgreeOn (VRel sz (T + n))
        (do a.2.elem sz (a.2.v.beg + n * sz); pure (a.1, { a.2 with v := { a.2.v with fin := a.2.v.beg + n * sz } }))
        (pure (b.1, { b.2 with fin := b.2.beg + n * sz }) : M (A.St × Vec)) := fun a b cap' h h1 h2 => by
    rw [h.2.2.elem h1]
    exact AgreeOn.pure ⟨h.1, by rw [← h.2.1], n, cap', ⟨rfl, h.2.2.max, h.2.2.top, h1, h.2.2.null⟩, by omega, h2⟩
  by_cases h : cap < n
  · rw [if_pos h, if_pos h]
    refine AgreeOn.bind (expand_agree hz hp (n - cap) (hW _ (by omega))) (fun a b h' => tail a b _ h' (by omega) (by omega))
  · rw [if_neg h, if_neg h]
    exact tail (s, p) (s, p.v) cap ⟨rfl, rfl, hp⟩ (by omega) (by omega)

theorem reserve_agree (hz : 0 < sz) {p : PVec} {k cap : Nat} (hp : p.Fits sz k cap) (n : Nat) (hk : k ≤ T) (hc : cap ≤ 2 * T)
    (hW : ∀ m, m ≤ 2 * (T + n) → sz * m < W64) :
    AgreeOn (VRel sz (T + n)) (PVec.reserve true sz A s p n) (Vec.reserve sz A s p.v n) := by
  unfold PVec.reserve Vec.reserve
  rw [hp.capacity hz, hp.cap_eq hz, pure_bind]
  by_cases h : cap < n
  · rw [if_pos h, if_pos h]
    exact (setSize_agree hz hp n (hW _ (by omega))).mono fun a b h' => ⟨h'.1, h'.2.1, _, _, h'.2.2, by omega, by omega⟩
  · rw [if_neg h, if_neg h]
    exact AgreeOn.pure ⟨rfl, rfl, k, cap, hp, by omega, by omega⟩

/-- the results of two functions that also return an iterator -/
def IRel (sz T : Nat) {S : Type} (a : Nat × S × PVec) (b : Nat × S × Vec) : Prop := a.1 = b.1 ∧ VRel sz T a.2 b.2

theorem pushBack_agree (hz : 0 < sz) {p : PVec} {k cap : Nat} (hp : p.Fits sz k cap) (x : Arg) (hk : k ≤ T) (hc : cap ≤ 2 * T)
    (hW : ∀ m, m ≤ 2 * (T + 1) → sz * m < W64) :
    AgreeOn (IRel sz (T + 1)) (PVec.pushBack true sz A s p x) (Vec.pushBack sz A s p.v x) := by
  unfold PVec.pushBack Vec.pushBack
  have tail : ∀ (a : A.St × PVec) (b : A.St × Vec) (cap' : Nat), (a.1 = b.1 ∧ a.2.v = b.2 ∧ a.2.Fits sz k cap') → k + 1 ≤ cap' → cap' ≤ 2 * (T + 1) →
      AgreeOn (IRel sz (T + 1))
        (do
          let bs ← x.fetch sz
          M.writeBytes a.2.v.fin bs
          a.2.elem sz (a.2.v.fin + sz)
          pure (a.2.v.fin, a.1, { a.2 with v := { a.2.v with fin := a.2.v.fin + sz } }))
        (do
          let bs ← x.fetch sz
          M.writeBytes b.2.fin bs
          pure (b.2.fin, b.1, { b.2 with fin := b.2.fin + sz }) : M (Nat × A.St × Vec)) := fun a b cap' h h1 h2 => by
    refine AgreeOn.same _ fun bs => ?_
    rw [← h.2.1]
    refine AgreeOn.same _ fun _ => ?_
    have hf : a.2.v.fin + sz = a.2.v.beg + (k + 1) * sz := by rw [h.2.2.fin, Nat.succ_mul]; omega
    rw [hf, h.2.2.elem h1]
    exact AgreeOn.pure ⟨rfl, h.1, rfl, k + 1, cap', ⟨rfl, h.2.2.max, h.2.2.top, h1, h.2.2.null⟩, by omega, h2⟩
  by_cases h : p.v.fin = p.v.max
  · rw [if_pos h, if_pos h]
    have hkc : k = cap := by
      rw [hp.fin, hp.max] at h
      exact Nat.eq_of_mul_eq_mul_right hz (by omega)
    refine AgreeOn.bind (expand_agree hz hp 1 (hW _ (by omega))) (fun a b h' => tail a b _ h' (by omega) (by omega))
  · rw [if_neg h, if_neg h]
    have hkc : k ≠ cap := fun e => h (by rw [hp.fin, hp.max, e])
    have := hp.le
    exact tail (s, p) (s, p.v) cap ⟨rfl, rfl, hp⟩ (by omega) (by omega)

theorem pushRange_agree (hz : 0 < sz) {p : PVec} {k cap : Nat} (hp : p.Fits sz k cap) (n : Nat) (x : Arg) (hk : k ≤ T) (hc : cap ≤ 2 * T)
    (hW : ∀ m, m ≤ 2 * (T + n) → sz * m < W64) :
    AgreeOn (IRel sz (T + n)) (PVec.pushRange true sz A s p n x) (Vec.pushRange sz A s p.v n x) := by
  unfold PVec.pushRange Vec.pushRange
  have tail : ∀ (a : A.St × PVec) (b : A.St × Vec) (cap' : Nat), (a.1 = b.1 ∧ a.2.v = b.2 ∧ a.2.Fits sz k cap') → k + n ≤ cap' → cap' ≤ 2 * (T + n) →
      AgreeOn (IRel sz (T + n))
        (do
          a.2.elem sz (a.2.v.fin + n * sz)
          x.copyPtr true a.2.v.fin (n * sz)
          pure (a.2.v.fin, a.1, { a.2 with v := { a.2.v with fin := a.2.v.fin + n * sz } }))
        (do
          x.copy b.2.fin (n * sz)
          pure (b.2.fin, b.1, { b.2 with fin := b.2.fin + n * sz }) : M (Nat × A.St × Vec)) := fun a b cap' h h1 h2 => by
    have hf : a.2.v.fin + n * sz = a.2.v.beg + (k + n) * sz := by rw [h.2.2.fin, Nat.add_mul]; omega
    rw [hf, h.2.2.elem h1, copyP_lax, ← h.2.1]
    refine AgreeOn.same _ fun _ => ?_
    rw [← hf]
    refine AgreeOn.pure ⟨rfl, h.1, rfl, k + n, cap', ⟨hf, h.2.2.max, h.2.2.top, h1, h.2.2.null⟩, by omega, h2⟩
  have hroom : (p.v.max - p.v.fin) / sz = cap - k := by
    rw [hp.fin, hp.max, Nat.add_sub_add_left, ← Nat.sub_mul, Nat.mul_div_cancel _ hz]
  have e1 : p.elem sz p.v.max = pure () := by rw [hp.max]; exact hp.elem (Nat.le_refl _)
  have e2 : p.elem sz p.v.fin = pure () := by rw [hp.fin]; exact hp.elem hp.le
  rw [e1, e2, hroom, pure_bind, pure_bind]
  have := hp.le
  by_cases h : cap - k < n
  · rw [if_pos h, if_pos h]
    exact AgreeOn.bind (expand_agree hz hp n (hW _ (by omega))) (fun a b h' => tail a b _ h' (by omega) (by omega))
  · rw [if_neg h, if_neg h]
    exact tail (s, p) (s, p.v) cap ⟨rfl, rfl, hp⟩ (by omega) (by omega)

/-- the results of `erase` -/
def ERel (sz T : Nat) (a : Nat × PVec) (b : Nat × Vec) : Prop := a.1 = b.1 ∧ a.2.v = b.2 ∧ a.2.Ok sz T

theorem erase_agree (hz : 0 < sz) {p : PVec} {k cap : Nat} (hp : p.Fits sz k cap) (i : Nat) (hi : i < k) (hk : k ≤ T) (hc : cap ≤ 2 * T) :
    AgreeOn (ERel sz T) (PVec.erase true sz p (p.v.beg + i * sz)) (Vec.erase sz p.v (p.v.beg + i * sz)) := by
  unfold PVec.erase Vec.erase
  have := hp.le
  have hm : (i + 1) * sz ≤ k * sz := Nat.mul_le_mul_right _ hi
  have h1 : p.v.beg + i * sz + sz = p.v.beg + (i + 1) * sz := by rw [Nat.succ_mul]; omega
  have h2 : p.v.fin - sz = p.v.beg + (k - 1) * sz := by
    obtain ⟨j, rfl⟩ : ∃ j, k = j + 1 := ⟨k - 1, by omega⟩
    rw [hp.fin, Nat.succ_mul, Nat.add_sub_cancel]; omega
  have e2 : p.elem sz p.v.fin = pure () := by rw [hp.fin]; exact hp.elem hp.le
  rw [h1, hp.elem (by omega), e2, hp.elem (j := i) (by omega), memmoveP_lax, h2, hp.elem (j := k - 1) (by omega),
    if_pos (by rw [hp.fin]; rw [Nat.succ_mul] at hm; omega)]
  refine AgreeOn.same _ fun _ => AgreeOn.pure ⟨rfl, rfl, k - 1, cap, ⟨rfl, hp.max, hp.top, by omega, hp.null⟩, by omega, hc⟩

theorem eraseRange_agree (hz : 0 < sz) {p : PVec} {k cap : Nat} (hp : p.Fits sz k cap) (i n : Nat) (hi : i + n ≤ k) (hk : k ≤ T) (hc : cap ≤ 2 * T) :
    AgreeOn (ERel sz T) (PVec.eraseRange true sz p (p.v.beg + i * sz) (p.v.beg + (i + n) * sz))
      (Vec.eraseRange sz p.v (p.v.beg + i * sz) (p.v.beg + (i + n) * sz)) := by
  unfold PVec.eraseRange Vec.eraseRange
  have := hp.le
  have hm : (i + n) * sz ≤ k * sz := Nat.mul_le_mul_right _ hi
  have h1 : p.v.beg + (i + n) * sz - (p.v.beg + i * sz) = n * sz := by rw [Nat.add_mul]; omega
  have h2 : p.v.fin - n * sz = p.v.beg + (k - n) * sz := by
    obtain ⟨j, rfl⟩ : ∃ j, k = j + n := ⟨k - n, by omega⟩
    rw [hp.fin, Nat.add_mul, Nat.add_sub_cancel]; omega
  have e2 : p.elem sz p.v.fin = pure () := by rw [hp.fin]; exact hp.elem hp.le
  rw [h1, h2, e2, hp.elem (j := i + n) (by omega), memmoveP_lax, hp.elem (j := i) (by omega), hp.elem (j := k - n) (by omega),
    if_pos (by rw [hp.fin]; rw [Nat.add_mul] at hm; omega)]
  refine AgreeOn.same _ fun _ => AgreeOn.pure ⟨rfl, rfl, k - n, cap, ⟨rfl, hp.max, hp.top, by omega, hp.null⟩, by omega, hc⟩
end

/-- the relation kept by programs. Proof helper, not code. -/
def PVecs.Rel (sz T : Nat) {A : Allocator} (c : PVecs A) (d : Vecs A) : Prop := c.base = d ∧ ∀ p ∈ c.vs, p.Ok sz T

section
variable {sz T : Nat} {A : Allocator}

theorem map_eraseIdx {α β : Type} (f : α → β) : ∀ (l : List α) (i : Nat), (l.eraseIdx i).map f = (l.map f).eraseIdx i
  | [], _ => rfl
  | _ :: _, 0 => rfl
  | a :: l, i + 1 => by simp [List.eraseIdx, map_eraseIdx f l i]

theorem PVecs.get (c : PVecs A) (i : Nat) : (c.base.vs)[i]? = (c.vs[i]?).map PVec.v := List.getElem?_map

theorem PVecs.Rel.add {c : PVecs A} {T' : Nat} (h : ∀ p ∈ c.vs, p.Ok sz T) (hT : T ≤ T') {a : A.St × PVec} {b : A.St × Vec} (hr : VRel sz T' a b) :
    PVecs.Rel sz T' { c with st := a.1, vs := c.vs ++ [a.2] } { c.base with st := b.1, vs := c.base.vs ++ [b.2] } := by
  refine ⟨?_, fun p hp => ?_⟩
  · simp [PVecs.base, hr.1, hr.2.1]
  · rcases List.mem_append.1 hp with hp | hp
    · exact (h p hp).mono hT
    · rw [List.mem_singleton.1 hp]; exact hr.2.2

theorem PVecs.Rel.set {c : PVecs A} {T' : Nat} (h : ∀ p ∈ c.vs, p.Ok sz T) (hT : T ≤ T') (i : Nat) {a : PVec} {b : Vec} (hv : a.v = b) (ha : a.Ok sz T')
    (s : A.St) (y : List (List UInt8)) :
    PVecs.Rel sz T' { c with st := s, vs := c.vs.set i a, seen := y } { c.base with st := s, vs := c.base.vs.set i b, seen := y } := by
  refine ⟨?_, fun p hp => ?_⟩
  · simp [PVecs.base, List.map_set, hv]
  · rcases List.mem_or_eq_of_mem_set hp with hp | rfl
    · exact (h p hp).mono hT
    · exact ha

theorem PVecs.Rel.self {c : PVecs A} {T' : Nat} (h : ∀ p ∈ c.vs, p.Ok sz T) (hT : T ≤ T') : PVecs.Rel sz T' c c.base :=
  ⟨rfl, fun p hp => (h p hp).mono hT⟩

theorem VRel.of_fits {T' k cap : Nat} {S : Type} {a : S × PVec} {b : S × Vec} (h : a.1 = b.1 ∧ a.2.v = b.2 ∧ a.2.Fits sz k cap) (h1 : k ≤ T') (h2 : cap ≤ 2 * T') :
    VRel sz T' a b := ⟨h.1, h.2.1, k, cap, h.2.2, h1, h2⟩

theorem pvstep (hz : 0 < sz) (c : PVecs A) (o : VOp) (hc : ∀ p ∈ c.vs, p.Ok sz T) (hW : ∀ m, m ≤ 2 * (T + o.weight) → sz * m < W64) :
    AgreeOn (PVecs.Rel sz (T + o.weight)) (c.step true sz o) (c.base.step sz o) := by
  have hT : T ≤ T + o.weight := Nat.le_add_right ..
  have hself : AgreeOn (PVecs.Rel sz (T + o.weight)) (pure c) (pure c.base) := AgreeOn.pure (PVecs.Rel.self hc hT)
  have hget := c.get
  have hmem : ∀ {i : Nat} {p : PVec}, c.vs[i]? = some p → p ∈ c.vs := fun h => List.mem_of_getElem? h
  cases o with
  | new =>
    exact AgreeOn.pure (PVecs.Rel.add hc hT (a := (c.st, PVec.null)) (b := (c.st, Vec.null)) ⟨rfl, rfl, 0, 0, PVec.null_fits, by omega, by omega⟩)
  | newSize n =>
    simp only [VOp.weight] at hW hT ⊢
    exact AgreeOn.bind (ofSize_agree n (hW _ (by omega))) (fun a b h => AgreeOn.pure (PVecs.Rel.add hc hT (VRel.of_fits h (by omega) (by omega))))
  | newFill n x =>
    simp only [VOp.weight] at hW hT hself ⊢
    simp only [PVecs.step, Vecs.step]
    split
    · exact AgreeOn.bind (ofFill_agree n (hW _ (by omega)) _) (fun a b h => AgreeOn.pure (PVecs.Rel.add hc hT (VRel.of_fits h (by omega) (by omega))))
    · exact hself
  | newRange xs =>
    simp only [VOp.weight] at hW hT hself ⊢
    simp only [PVecs.step, Vecs.step]
    split
    · exact AgreeOn.bind (ofRange_agree xs.length (hW _ (by omega)) _) (fun a b h => AgreeOn.pure (PVecs.Rel.add hc hT (VRel.of_fits h (by omega) (by omega))))
    · exact hself
  | copy j =>
    simp only [PVecs.step, Vecs.step, hget]
    cases hj : c.vs[j]? with
    | none => exact hself
    | some p =>
      obtain ⟨k, cap, hp, hk, hcap⟩ := hc p (hmem hj)
      exact AgreeOn.bind (copy_agree hz hp (hW _ (by omega))) (fun a b h => AgreeOn.pure (PVecs.Rel.add hc hT (VRel.of_fits h (by omega) (by omega))))
  | move j =>
    simp only [PVecs.step, Vecs.step, hget]
    cases hj : c.vs[j]? with
    | none => exact hself
    | some p =>
      refine AgreeOn.pure ⟨?_, fun q hq => ?_⟩
      · simp [PVecs.base, List.map_set, PVec.null]
      · rcases List.mem_append.1 hq with hq | hq
        · rcases List.mem_or_eq_of_mem_set hq with hq | rfl
          · exact (hc q hq).mono hT
          · exact ⟨0, 0, PVec.null_fits, by omega, by omega⟩
        · rw [List.mem_singleton.1 hq]; exact (hc p (hmem hj)).mono hT
  | copyAssign i j =>
    simp only [PVecs.step, Vecs.step]
    split
    · exact hself
    · unfold PVecs.copyAssign Vecs.copyAssign
      rw [hget, hget]
      cases hi : c.vs[i]? with
      | none => exact hself
      | some v =>
        cases hj : c.vs[j]? with
        | none => exact hself
        | some o =>
          obtain ⟨k, cap, hp, hk, hcap⟩ := hc v (hmem hi)
          obtain ⟨k', cap', hp', hk', hcap'⟩ := hc o (hmem hj)
          simp only [Option.map_some, hp.destroy hz, hp'.size hz, hp'.size_eq hz, pure_bind]
          refine AgreeOn.same _ fun s => AgreeOn.bind (ofSize_agree k' (hW _ (by omega))) (fun a b h => ?_)
          have hs := PVecs.Rel.set (sz := sz) hc hT i h.2.1 ⟨k', k', h.2.2, by omega, by omega⟩ a.1 c.seen
          have hb : (c.base.vs.set i b.2)[j]? = ((c.vs.set i a.2)[j]?).map PVec.v := by
            have : c.base.vs.set i b.2 = (c.vs.set i a.2).map PVec.v := by rw [List.map_set, h.2.1]; rfl
            rw [this, List.getElem?_map]
          rw [memcpyP_lax, hb, h.2.1, ← h.1]
          cases (c.vs.set i a.2)[j]? <;> exact AgreeOn.same _ fun _ => AgreeOn.pure hs
  | moveAssign i j =>
    simp only [PVecs.step, Vecs.step]
    unfold PVecs.moveAssign Vecs.moveAssign
    rw [hget, hget]
    cases hi : c.vs[i]? with
    | none => exact hself
    | some v =>
      cases hj : c.vs[j]? with
      | none => exact hself
      | some o =>
        obtain ⟨k, cap, hp, hk, hcap⟩ := hc v (hmem hi)
        simp only [Option.map_some, hp.destroy hz]
        refine AgreeOn.same _ fun s => AgreeOn.pure ⟨?_, fun q hq => ?_⟩
        · simp [PVecs.base, List.map_set, PVec.null]
        · rcases List.mem_or_eq_of_mem_set hq with hq | rfl
          · rcases List.mem_or_eq_of_mem_set hq with hq | rfl
            · exact (hc q hq).mono hT
            · exact (hc _ (hmem hj)).mono hT
          · exact ⟨0, 0, PVec.null_fits, by omega, by omega⟩
  | destroy i =>
    simp only [PVecs.step, Vecs.step, hget]
    cases hi : c.vs[i]? with
    | none => exact hself
    | some v =>
      obtain ⟨k, cap, hp, hk, hcap⟩ := hc v (hmem hi)
      simp only [Option.map_some, hp.destroy hz]
      refine AgreeOn.same _ fun s => AgreeOn.pure ⟨?_, fun q hq => (hc q (List.mem_of_mem_eraseIdx hq)).mono hT⟩
      simp only [PVecs.base, map_eraseIdx]
  | push i x =>
    simp only [PVecs.step, Vecs.step, hget]
    cases hi : c.vs[i]? with
    | none => exact hself
    | some v =>
      obtain ⟨k, cap, hp, hk, hcap⟩ := hc v (hmem hi)
      simp only [Option.map_some]
      split
      · refine AgreeOn.bind (pushBack_agree hz hp _ hk hcap hW) (fun a b h => ?_)
        rw [h.1]
        refine AgreeOn.same _ fun y => ?_
        have := PVecs.Rel.set (sz := sz) hc hT i h.2.2.1 h.2.2.2 a.2.1 (c.seen ++ [y])
        rw [← h.2.1]
        exact AgreeOn.pure this
      · exact hself
  | pushRange i xs =>
    simp only [PVecs.step, Vecs.step, hget]
    cases hi : c.vs[i]? with
    | none => exact hself
    | some v =>
      obtain ⟨k, cap, hp, hk, hcap⟩ := hc v (hmem hi)
      simp only [Option.map_some]
      split
      · refine AgreeOn.bind (pushRange_agree hz hp _ _ hk hcap hW) (fun a b h => ?_)
        rw [h.1]
        refine AgreeOn.same _ fun y => ?_
        have := PVecs.Rel.set (sz := sz) hc hT i h.2.2.1 h.2.2.2 a.2.1 (c.seen ++ [y])
        rw [← h.2.1]
        exact AgreeOn.pure this
      · exact hself
  | pushFrom i j a n =>
    simp only [PVecs.step, Vecs.step, hget]
    cases hi : c.vs[i]? with
    | none => exact hself
    | some v =>
      cases hj : c.vs[j]? with
      | none => exact hself
      | some o =>
        obtain ⟨k, cap, hp, hk, hcap⟩ := hc v (hmem hi)
        obtain ⟨k', cap', hp', hk', hcap'⟩ := hc o (hmem hj)
        simp only [Option.map_some]
        split
        · rename_i hcond
          have := hp'.size_eq hz
          have := hp'.le
          rw [hp'.elem (by omega), hp'.elem (by omega), pure_bind, pure_bind]
          refine AgreeOn.bind (pushRange_agree hz hp _ _ hk hcap hW) (fun a b h => ?_)
          rw [h.1]
          refine AgreeOn.same _ fun y => ?_
          have := PVecs.Rel.set (sz := sz) hc hT i h.2.2.1 h.2.2.2 a.2.1 (c.seen ++ [y])
          rw [← h.2.1]
          exact AgreeOn.pure this
        · exact hself
  | erase i k =>
    simp only [PVecs.step, Vecs.step, hget]
    cases hi : c.vs[i]? with
    | none => exact hself
    | some v =>
      obtain ⟨k', cap, hp, hk, hcap⟩ := hc v (hmem hi)
      simp only [Option.map_some]
      split
      · rename_i hcond
        have := hp.size_eq hz
        have := hp.le
        rw [hp.elem (by omega), pure_bind]
        refine AgreeOn.bind (erase_agree hz hp _ (by omega) hk hcap) (fun a b h => ?_)
        rw [h.1, h.2.1]
        refine AgreeOn.same _ fun y => ?_
        exact AgreeOn.pure (PVecs.Rel.set (sz := sz) hc hT i h.2.1 (h.2.2.mono hT) c.st (c.seen ++ [y]))
      · exact hself
  | eraseRange i a n =>
    simp only [PVecs.step, Vecs.step, hget]
    cases hi : c.vs[i]? with
    | none => exact hself
    | some v =>
      obtain ⟨k', cap, hp, hk, hcap⟩ := hc v (hmem hi)
      simp only [Option.map_some]
      split
      · rename_i hcond
        have := hp.size_eq hz
        have := hp.le
        rw [hp.elem (by omega), hp.elem (by omega), pure_bind, pure_bind]
        refine AgreeOn.bind (eraseRange_agree hz hp _ _ (by omega) hk hcap) (fun a b h => ?_)
        rw [h.1, h.2.1]
        refine AgreeOn.same _ fun y => ?_
        exact AgreeOn.pure (PVecs.Rel.set (sz := sz) hc hT i h.2.1 (h.2.2.mono hT) c.st (c.seen ++ [y]))
      · exact hself
  | resize i n =>
    simp only [PVecs.step, Vecs.step, hget]
    cases hi : c.vs[i]? with
    | none => exact hself
    | some v =>
      obtain ⟨k, cap, hp, hk, hcap⟩ := hc v (hmem hi)
      refine AgreeOn.bind (resize_agree hz hp _ hk hcap hW) (fun a b h => ?_)
      rw [← h.1]
      exact AgreeOn.pure (PVecs.Rel.set (sz := sz) hc hT i h.2.1 h.2.2 a.1 c.seen)
  | reserve i n =>
    simp only [PVecs.step, Vecs.step, hget]
    cases hi : c.vs[i]? with
    | none => exact hself
    | some v =>
      obtain ⟨k, cap, hp, hk, hcap⟩ := hc v (hmem hi)
      refine AgreeOn.bind (reserve_agree hz hp _ hk hcap hW) (fun a b h => ?_)
      rw [← h.1]
      exact AgreeOn.pure (PVecs.Rel.set (sz := sz) hc hT i h.2.1 h.2.2 a.1 c.seen)
  | clear i =>
    simp only [PVecs.step, Vecs.step, hget]
    cases hi : c.vs[i]? with
    | none => exact hself
    | some v =>
      obtain ⟨k, cap, hp, hk, hcap⟩ := hc v (hmem hi)
      exact AgreeOn.pure (PVecs.Rel.set (sz := sz) hc hT i (a := v.clear) rfl ⟨0, cap, ⟨by simp [PVec.clear, Vec.clear], hp.max, hp.top, by omega, hp.null⟩, by omega, by omega⟩ c.st c.seen)
  | write i k x =>
    simp only [PVecs.step, Vecs.step, hget]
    cases hi : c.vs[i]? with
    | none => exact hself
    | some v =>
      obtain ⟨k', cap, hp, hk, hcap⟩ := hc v (hmem hi)
      simp only [Option.map_some]
      split
      · rename_i hcond
        have := hp.size_eq hz
        have := hp.le
        unfold PVec.write
        rw [hp.elem (by omega), pure_bind]
        exact AgreeOn.same _ fun _ => hself
      · exact hself
  | read i k =>
    simp only [PVecs.step, Vecs.step, hget]
    cases hi : c.vs[i]? with
    | none => exact hself
    | some v =>
      obtain ⟨k', cap, hp, hk, hcap⟩ := hc v (hmem hi)
      simp only [Option.map_some]
      split
      · rename_i hcond
        have := hp.size_eq hz
        have := hp.le
        unfold PVec.read
        rw [hp.elem (by omega), pure_bind]
        exact AgreeOn.same _ fun y => AgreeOn.pure ⟨rfl, fun p hp => (hc p hp).mono hT⟩
      · exact hself

theorem pvrun (hz : 0 < sz) (N : Nat) (hW : ∀ m, m ≤ 2 * N → sz * m < W64) (ops : List VOp) : ∀ (T : Nat) (c : PVecs A), (∀ p ∈ c.vs, p.Ok sz T) →
    T + weights ops ≤ N → AgreeOn (PVecs.Rel sz N) (c.run true sz ops) (c.base.run sz ops) := by
  induction ops with
  | nil => exact fun T c hc hN => AgreeOn.pure (PVecs.Rel.self hc (by simp only [weights] at hN; omega))
  | cons o os ih =>
    intro T c hc hN
    simp only [weights] at hN
    refine AgreeOn.bind (pvstep hz c o hc (fun m hm => hW m (by omega))) (fun a b h => ?_)
    obtain ⟨rfl, h⟩ := h
    exact ih _ a h (by omega)
end

/-! ### Proof: arrays -/

/-- as `PVec.Fits`. Proof helper, not code. -/
structure PArr.Fits (sz k : Nat) (p : PArr) : Prop where
  fin : p.v.fin = p.v.beg + k * sz
  top : p.top = p.v.beg + k * sz
  null : p.v.beg = 0 → k = 0

namespace PArr.Fits
variable {sz k : Nat} {p : PArr}

theorem elem (h : p.Fits sz k) {j : Nat} (hj : j ≤ k) : p.elem sz (p.v.beg + j * sz) = pure () := by
  unfold PArr.elem; rw [h.top]; exact elem_at hj

theorem size_eq (h : p.Fits sz k) (hz : 0 < sz) : p.v.size sz = k := by
  unfold Arr.size; rw [h.fin, Nat.add_sub_cancel_left, Nat.mul_div_cancel _ hz]

theorem size (h : p.Fits sz k) (hz : 0 < sz) : p.size sz = pure k := by
  unfold PArr.size; rw [h.fin, h.elem (Nat.le_refl _), h.size_eq hz]; rfl

theorem destroy (h : p.Fits sz k) (hz : 0 < sz) (A : Allocator) (s : A.St) : p.destroy sz A s = p.v.destroy sz A s := by
  unfold PArr.destroy Arr.destroy
  rw [h.size hz, h.size_eq hz]; rfl
end PArr.Fits

/-- and the size is bounded. Proof helper, not code. -/
def PArr.Ok (sz T : Nat) (p : PArr) : Prop := ∃ k, p.Fits sz k ∧ k ≤ T

theorem PArr.Ok.mono {sz T T' : Nat} {p : PArr} (h : p.Ok sz T) (hT : T ≤ T') : p.Ok sz T' := by
  obtain ⟨k, h, h1⟩ := h; exact ⟨k, h, by omega⟩

theorem PArr.null_fits {sz : Nat} : PArr.null.Fits sz 0 := ⟨by simp [PArr.null, Arr.null], by simp [PArr.null, Arr.null], fun _ => rfl⟩

/-- the results of two functions that return the allocator and the array -/
def ARel (sz T : Nat) {S : Type} (a : S × PArr) (b : S × Arr) : Prop := a.1 = b.1 ∧ a.2.v = b.2 ∧ a.2.Ok sz T

section
variable {sz : Nat} {A : Allocator} {s : A.St} {T : Nat}

theorem aofSize_agree (n : Nat) (hT : n ≤ T) (hn : sz * n < W64) :
    AgreeOn (fun (a : A.St × PArr) (b : A.St × Arr) => ARel sz T a b ∧ a.2.Fits sz n) (PArr.ofSize sz A s n) (Arr.ofSize sz A s n) := by
  refine AgreeOn.same' _ _ (fun w r w' => grab_null_zero w r w') (fun r hr => ?_)
  rw [mulW_eq hn, elem_at (Nat.le_refl _)]
  exact AgreeOn.pure ⟨⟨rfl, rfl, n, ⟨rfl, rfl, hr⟩, hT⟩, rfl, rfl, hr⟩

theorem aofFill_agree (n : Nat) (hT : n ≤ T) (hn : sz * n < W64) (x : Arg) :
    AgreeOn (ARel sz T) (PArr.ofFill sz A s n x) (Arr.ofFill sz A s n x) := by
  refine AgreeOn.bind (aofSize_agree (T := T) n hT hn) (fun a b h => ?_)
  have he := elems_at (lo := a.2.v.beg) (sz := sz) (n := n) n 0 (by omega)
  rw [Nat.zero_mul, Nat.add_zero] at he
  rw [h.2.top, he, ← h.1.2.1]
  split
  · exact AgreeOn.same _ fun _ => AgreeOn.same _ fun _ => AgreeOn.pure h.1
  · exact AgreeOn.same _ fun _ => AgreeOn.same _ fun _ => AgreeOn.pure h.1

theorem aofRange_agree (n : Nat) (hT : n ≤ T) (hn : sz * n < W64) (x : Arg) :
    AgreeOn (ARel sz T) (PArr.ofRange true sz A s n x) (Arr.ofRange sz A s n x) := by
  refine AgreeOn.bind (aofSize_agree (T := T) n hT hn) (fun a b h => ?_)
  rw [copyP_lax, h.1.2.1]
  exact AgreeOn.same _ fun _ => AgreeOn.pure h.1

theorem acopy_agree (hz : 0 < sz) {o : PArr} {k : Nat} (ho : o.Fits sz k) (hT : k ≤ T) (hn : sz * k < W64) :
    AgreeOn (ARel sz T) (PArr.copy true sz A s o) (Arr.copy sz A s o.v) := by
  unfold PArr.copy Arr.copy
  rw [ho.size hz, ho.size_eq hz, pure_bind]
  refine AgreeOn.bind (aofSize_agree (T := T) k hT hn) (fun a b h => ?_)
  rw [memcpyP_lax, h.1.2.1]
  split
  · exact AgreeOn.same _ fun _ => AgreeOn.pure h.1
  · exact AgreeOn.pure h.1

theorem aresize_agree (hz : 0 < sz) {p : PArr} {k : Nat} (hp : p.Fits sz k) (n : Nat) (hk : k ≤ T) (hT : n ≤ T) (hn : sz * n < W64) :
    AgreeOn (ARel sz T) (PArr.resize true sz A s p n) (Arr.resize sz A s p.v n) := by
  unfold PArr.resize Arr.resize
  rw [hp.size hz, hp.size_eq hz, pure_bind]
  split
  · refine AgreeOn.same' _ _ (fun w r w' => grab_null_zero w r w') (fun r hr => ?_)
    rw [memcpyP_lax, mulW_eq hn, elem_at (Nat.le_refl _)]
    have fin : ∀ s' : A.St, AgreeOn (ARel sz T) (pure (s', ⟨⟨r.1, r.1 + n * sz⟩, r.1 + n * sz⟩)) (pure (s', ⟨r.1, r.1 + n * sz⟩)) :=
      fun s' => AgreeOn.pure ⟨rfl, rfl, n, ⟨rfl, rfl, hr⟩, hT⟩
    split
    · exact AgreeOn.same _ fun _ => AgreeOn.same _ fun s' => fin s'
    · exact fin _
  · exact AgreeOn.pure ⟨rfl, rfl, k, hp, hk⟩

theorem assignRoom_agree (hz : 0 < sz) {p : PArr} {k : Nat} (hp : p.Fits sz k) (n : Nat) (hk : k ≤ T) (hT : n ≤ T) (hn : sz * n < W64) :
    AgreeOn (ARel sz T) (PArr.assignRoom sz A s p n) (Arr.assignRoom sz A s p.v n) := by
  unfold PArr.assignRoom Arr.assignRoom
  rw [hp.size hz, hp.size_eq hz, pure_bind]
  split
  · refine AgreeOn.same' _ _ (fun w r w' => grab_null_zero w r w') (fun r hr => ?_)
    rw [mulW_eq hn, elem_at (Nat.le_refl _), hp.destroy hz]
    exact AgreeOn.same _ fun s' => AgreeOn.pure ⟨rfl, rfl, n, ⟨rfl, rfl, hr⟩, hT⟩
  · exact AgreeOn.pure ⟨rfl, rfl, k, hp, hk⟩

theorem assign_agree (hz : 0 < sz) {p : PArr} {k : Nat} (hp : p.Fits sz k) (n : Nat) (x : Arg) (hk : k ≤ T) (hT : n ≤ T) (hn : sz * n < W64) :
    AgreeOn (ARel sz T) (PArr.assign true sz A s p n x) (Arr.assign sz A s p.v n x) := by
  refine AgreeOn.bind (assignRoom_agree hz hp n hk hT hn) (fun a b h => ?_)
  rw [copyP_lax, h.2.1]
  exact AgreeOn.same _ fun _ => AgreeOn.pure h
end

/-- the relation kept by programs. Proof helper, not code. -/
def PArrs.Rel (sz T : Nat) {A : Allocator} (c : PArrs A) (d : Arrs A) : Prop := c.base = d ∧ ∀ p ∈ c.vs, p.Ok sz T

section
variable {sz T : Nat} {A : Allocator}

theorem PArrs.get (c : PArrs A) (i : Nat) : (c.base.vs)[i]? = (c.vs[i]?).map PArr.v := List.getElem?_map

theorem PArrs.Rel.add {c : PArrs A} {T' : Nat} (h : ∀ p ∈ c.vs, p.Ok sz T) (hT : T ≤ T') {a : A.St × PArr} {b : A.St × Arr} (hr : ARel sz T' a b) :
    PArrs.Rel sz T' { c with st := a.1, vs := c.vs ++ [a.2] } { c.base with st := b.1, vs := c.base.vs ++ [b.2] } := by
  refine ⟨?_, fun p hp => ?_⟩
  · simp [PArrs.base, hr.1, hr.2.1]
  · rcases List.mem_append.1 hp with hp | hp
    · exact (h p hp).mono hT
    · rw [List.mem_singleton.1 hp]; exact hr.2.2

theorem PArrs.Rel.set {c : PArrs A} {T' : Nat} (h : ∀ p ∈ c.vs, p.Ok sz T) (hT : T ≤ T') (i : Nat) {a : A.St × PArr} {b : A.St × Arr} (hr : ARel sz T' a b) :
    PArrs.Rel sz T' { c with st := a.1, vs := c.vs.set i a.2 } { c.base with st := b.1, vs := c.base.vs.set i b.2 } := by
  refine ⟨?_, fun p hp => ?_⟩
  · simp [PArrs.base, List.map_set, hr.1, hr.2.1]
  · rcases List.mem_or_eq_of_mem_set hp with hp | rfl
    · exact (h p hp).mono hT
    · exact hr.2.2

theorem pastep (hz : 0 < sz) (c : PArrs A) (o : ArrOp) (hc : ∀ p ∈ c.vs, p.Ok sz T) (hW : ∀ m, m ≤ T + o.weight → sz * m < W64) :
    AgreeOn (PArrs.Rel sz (T + o.weight)) (c.step true sz o) (c.base.step sz o) := by
  have hT : T ≤ T + o.weight := Nat.le_add_right ..
  have hself : AgreeOn (PArrs.Rel sz (T + o.weight)) (pure c) (pure c.base) := AgreeOn.pure ⟨rfl, fun p hp => (hc p hp).mono hT⟩
  have hget := c.get
  have hmem : ∀ {i : Nat} {p : PArr}, c.vs[i]? = some p → p ∈ c.vs := fun h => List.mem_of_getElem? h
  cases o with
  | new => exact AgreeOn.pure (PArrs.Rel.add hc hT (a := (c.st, PArr.null)) (b := (c.st, Arr.null)) ⟨rfl, rfl, 0, PArr.null_fits, by omega⟩)
  | newSize n =>
    simp only [ArrOp.weight] at hW hT ⊢
    exact AgreeOn.bind (aofSize_agree n (Nat.le_add_left n T) (hW _ (by omega))) (fun a b h => AgreeOn.pure (PArrs.Rel.add hc hT h.1))
  | newFill n x =>
    simp only [ArrOp.weight] at hW hT hself ⊢
    simp only [PArrs.step, Arrs.step]
    split
    · exact AgreeOn.bind (aofFill_agree n (Nat.le_add_left n T) (hW _ (by omega)) _) (fun a b h => AgreeOn.pure (PArrs.Rel.add hc hT h))
    · exact hself
  | newRange xs =>
    simp only [ArrOp.weight] at hW hT hself ⊢
    simp only [PArrs.step, Arrs.step]
    split
    · exact AgreeOn.bind (aofRange_agree xs.length (Nat.le_add_left _ T) (hW _ (by omega)) _) (fun a b h => AgreeOn.pure (PArrs.Rel.add hc hT h))
    · exact hself
  | copy j =>
    simp only [PArrs.step, Arrs.step, hget]
    cases hj : c.vs[j]? with
    | none => exact hself
    | some p =>
      obtain ⟨k, hp, hk⟩ := hc p (hmem hj)
      exact AgreeOn.bind (acopy_agree hz hp (by omega) (hW _ (by omega))) (fun a b h => AgreeOn.pure (PArrs.Rel.add hc hT h))
  | move j =>
    simp only [PArrs.step, Arrs.step, hget]
    cases hj : c.vs[j]? with
    | none => exact hself
    | some p =>
      refine AgreeOn.pure ⟨?_, fun q hq => ?_⟩
      · simp [PArrs.base, List.map_set, PArr.null]
      · rcases List.mem_append.1 hq with hq | hq
        · rcases List.mem_or_eq_of_mem_set hq with hq | rfl
          · exact (hc q hq).mono hT
          · exact ⟨0, PArr.null_fits, by omega⟩
        · rw [List.mem_singleton.1 hq]; exact (hc p (hmem hj)).mono hT
  | copyAssign i j =>
    simp only [PArrs.step, Arrs.step]
    split
    · exact hself
    · unfold PArrs.copyAssign Arrs.copyAssign
      rw [hget, hget]
      cases hi : c.vs[i]? with
      | none => exact hself
      | some v =>
        cases hj : c.vs[j]? with
        | none => exact hself
        | some o =>
          obtain ⟨k, hp, hk⟩ := hc v (hmem hi)
          obtain ⟨k', hp', hk'⟩ := hc o (hmem hj)
          simp only [Option.map_some, hp.destroy hz, hp'.size hz, hp'.size_eq hz, pure_bind]
          refine AgreeOn.same _ fun s => AgreeOn.bind (aofSize_agree k' (by omega) (hW _ (by omega))) (fun a b h => ?_)
          have hs := PArrs.Rel.set (sz := sz) hc hT i h.1
          have hb : (c.base.vs.set i b.2)[j]? = ((c.vs.set i a.2)[j]?).map PArr.v := by
            have : c.base.vs.set i b.2 = (c.vs.set i a.2).map PArr.v := by rw [List.map_set, h.1.2.1]; rfl
            rw [this, List.getElem?_map]
          rw [memcpyP_lax, hb, h.1.2.1]
          cases (c.vs.set i a.2)[j]? <;> exact AgreeOn.same _ fun _ => AgreeOn.pure hs
  | moveAssign i j =>
    simp only [PArrs.step, Arrs.step]
    unfold PArrs.moveAssign Arrs.moveAssign
    rw [hget, hget]
    cases hi : c.vs[i]? with
    | none => exact hself
    | some v =>
      cases hj : c.vs[j]? with
      | none => exact hself
      | some o =>
        obtain ⟨k, hp, hk⟩ := hc v (hmem hi)
        simp only [Option.map_some, hp.destroy hz]
        refine AgreeOn.same _ fun s => AgreeOn.pure ⟨?_, fun q hq => ?_⟩
        · simp [PArrs.base, List.map_set, PArr.null]
        · rcases List.mem_or_eq_of_mem_set hq with hq | rfl
          · rcases List.mem_or_eq_of_mem_set hq with hq | rfl
            · exact (hc q hq).mono hT
            · exact (hc _ (hmem hj)).mono hT
          · exact ⟨0, PArr.null_fits, by omega⟩
  | destroy i =>
    simp only [PArrs.step, Arrs.step, hget]
    cases hi : c.vs[i]? with
    | none => exact hself
    | some v =>
      obtain ⟨k, hp, hk⟩ := hc v (hmem hi)
      simp only [Option.map_some, hp.destroy hz]
      refine AgreeOn.same _ fun s => AgreeOn.pure ⟨?_, fun q hq => (hc q (List.mem_of_mem_eraseIdx hq)).mono hT⟩
      simp only [PArrs.base, map_eraseIdx]
  | resize i n =>
    simp only [PArrs.step, Arrs.step, hget]
    cases hi : c.vs[i]? with
    | none => exact hself
    | some v =>
      obtain ⟨k, hp, hk⟩ := hc v (hmem hi)
      simp only [ArrOp.weight] at hW hT ⊢
      exact AgreeOn.bind (aresize_agree hz hp n (by omega) (Nat.le_add_left n T) (hW _ (by omega))) (fun a b h => AgreeOn.pure (PArrs.Rel.set hc hT i h))
  | assign i xs =>
    simp only [PArrs.step, Arrs.step, hget]
    cases hi : c.vs[i]? with
    | none => exact hself
    | some v =>
      obtain ⟨k, hp, hk⟩ := hc v (hmem hi)
      simp only [ArrOp.weight] at hW hT hself ⊢
      simp only [Option.map_some]
      split
      · exact AgreeOn.bind (assign_agree hz hp _ _ (by omega) (Nat.le_add_left _ T) (hW _ (by omega))) (fun a b h => AgreeOn.pure (PArrs.Rel.set hc hT i h))
      · exact hself
  | assignFrom i j a n =>
    simp only [PArrs.step, Arrs.step, hget]
    cases hi : c.vs[i]? with
    | none => exact hself
    | some v =>
      cases hj : c.vs[j]? with
      | none => exact hself
      | some o =>
        obtain ⟨k, hp, hk⟩ := hc v (hmem hi)
        obtain ⟨k', hp', hk'⟩ := hc o (hmem hj)
        simp only [ArrOp.weight] at hW hT hself ⊢
        simp only [Option.map_some]
        split
        · have := hp'.size_eq hz
          rw [hp'.elem (by omega), hp'.elem (by omega), pure_bind, pure_bind]
          exact AgreeOn.bind (assign_agree hz hp _ _ (by omega) (Nat.le_add_left _ T) (hW _ (by omega))) (fun a b h => AgreeOn.pure (PArrs.Rel.set hc hT i h))
        · exact hself
  | write i k x =>
    simp only [PArrs.step, Arrs.step, hget]
    cases hi : c.vs[i]? with
    | none => exact hself
    | some v =>
      obtain ⟨k', hp, hk⟩ := hc v (hmem hi)
      simp only [Option.map_some]
      split
      · have := hp.size_eq hz
        unfold PArr.write
        rw [hp.elem (by omega), pure_bind]
        exact AgreeOn.same _ fun _ => hself
      · exact hself
  | read i k =>
    simp only [PArrs.step, Arrs.step, hget]
    cases hi : c.vs[i]? with
    | none => exact hself
    | some v =>
      obtain ⟨k', hp, hk⟩ := hc v (hmem hi)
      simp only [Option.map_some]
      split
      · have := hp.size_eq hz
        unfold PArr.read
        rw [hp.elem (by omega), pure_bind]
        exact AgreeOn.same _ fun y => AgreeOn.pure ⟨rfl, fun p hp => (hc p hp).mono hT⟩
      · exact hself

theorem parun (hz : 0 < sz) (N : Nat) (hW : ∀ m, m ≤ N → sz * m < W64) (ops : List ArrOp) : ∀ (T : Nat) (c : PArrs A), (∀ p ∈ c.vs, p.Ok sz T) →
    T + aweights ops ≤ N → AgreeOn (PArrs.Rel sz N) (c.run true sz ops) (c.base.run sz ops) := by
  induction ops with
  | nil => exact fun T c hc hN => AgreeOn.pure ⟨rfl, fun p hp => (hc p hp).mono (by simp only [aweights] at hN; omega)⟩
  | cons o os ih =>
    intro T c hc hN
    simp only [aweights] at hN
    refine AgreeOn.bind (pastep hz c o hc (fun m hm => hW m (by omega))) (fun a b h => ?_)
    obtain ⟨rfl, h⟩ := h
    exact ih _ a h (by omega)
end

/-! ### Proof: the null pointer -/

theorem bind_congr_ok {α β : Type} {c : M α} {k l : α → M β} (h : ∀ w a w', c w = .ok a w' → k a = l a) : (c >>= k) = (c >>= l) := by
  funext w
  rw [M.bind_apply, M.bind_apply]
  cases hc : c w with
  | ok a w' => simp only; rw [h w a w' hc]
  | oom => rfl
  | ub => rfl

theorem memcpyP_ne {lax : Bool} {d s n : Nat} (hd : d ≠ 0) (hs : s ≠ 0) : M.memcpyP lax d s n = M.memcpyP true d s n := by
  rw [memcpyP_lax]; exact if_neg (by simp [hd, hs])
theorem memmoveP_ne {lax : Bool} {d s n : Nat} (hd : d ≠ 0) (hs : s ≠ 0) : M.memmoveP lax d s n = M.memmoveP true d s n := by
  rw [memmoveP_lax]; exact if_neg (by simp [hd, hs])

/-- the argument is not the null pointer. Proof helper, not code. -/
def Arg.real : Arg → Prop
  | .val _ => True
  | .ref a => a ≠ 0

theorem copyP_ne {lax : Bool} {d n : Nat} {x : Arg} (hd : d ≠ 0) (hx : x.real) : x.copyPtr lax d n = x.copyPtr true d n := by
  cases x with
  | val bs => unfold Arg.copyPtr; simp [hd]
  | ref a => exact memcpyP_ne hd hx

section
variable {sz : Nat} {A : Allocator} {s : A.St} {lax : Bool}

theorem setSize_strict (hz : 0 < sz) {p : PVec} {k cap : Nat} (hp : p.Fits sz k cap) {n : Nat} (hn : n ≠ 0) :
    PVec.setSize lax sz A s p n = PVec.setSize true sz A s p n := by
  unfold PVec.setSize
  rw [hp.size hz, pure_bind, pure_bind]
  refine bind_congr_ok fun w r w' hr => ?_
  have h0 : r.1 ≠ 0 := fun h => hn (grab_null_zero w r w' hr h)
  split
  · rename_i hb; rw [memcpyP_ne h0 hb]
  · rfl

theorem expand_strict (hz : 0 < sz) {p : PVec} {k cap : Nat} (hp : p.Fits sz k cap) {n : Nat} (hn : n ≠ 0) :
    PVec.expand lax sz A s p n = PVec.expand true sz A s p n := by
  unfold PVec.expand
  rw [hp.capacity hz, pure_bind, pure_bind, setSize_strict hz hp (by omega)]

theorem resize_strict (hz : 0 < sz) {p : PVec} {k cap : Nat} (hp : p.Fits sz k cap) (n : Nat) :
    PVec.resize lax sz A s p n = PVec.resize true sz A s p n := by
  unfold PVec.resize
  rw [hp.capacity hz, pure_bind, pure_bind]
  by_cases h : cap < n
  · rw [if_pos h, if_pos h, expand_strict hz hp (by omega)]
  · rw [if_neg h, if_neg h]

theorem reserve_strict (hz : 0 < sz) {p : PVec} {k cap : Nat} (hp : p.Fits sz k cap) (n : Nat) :
    PVec.reserve lax sz A s p n = PVec.reserve true sz A s p n := by
  unfold PVec.reserve
  rw [hp.capacity hz, pure_bind, pure_bind]
  by_cases h : cap < n
  · rw [if_pos h, if_pos h, setSize_strict hz hp (by omega)]
  · rw [if_neg h, if_neg h]

theorem pushBack_strict (hz : 0 < sz) {p : PVec} {k cap : Nat} (hp : p.Fits sz k cap) (x : Arg) :
    PVec.pushBack lax sz A s p x = PVec.pushBack true sz A s p x := by
  unfold PVec.pushBack
  by_cases h : p.v.fin = p.v.max
  · rw [if_pos h, if_pos h, expand_strict hz hp (by omega)]
  · rw [if_neg h, if_neg h]

/-- the array is new after `expand` -/
theorem expand_beg (hz : 0 < sz) {p : PVec} {k cap : Nat} (hp : p.Fits sz k cap) {n : Nat} (hn : n ≠ 0) (w : World) (r : A.St × PVec) (w' : World)
    (h : PVec.expand true sz A s p n w = .ok r w') : r.2.v.beg ≠ 0 ∧ r.2.v.beg ≤ r.2.v.fin := by
  unfold PVec.expand at h
  rw [hp.capacity hz, pure_bind] at h
  unfold PVec.setSize at h
  rw [hp.size hz, pure_bind] at h
  obtain ⟨a, w1, h1, h2⟩ := bind_ok h
  have h0 : a.1 ≠ 0 := fun e => by have := grab_null_zero w a w1 h1 e; omega
  have fin : ∀ (s' : A.St) (n' : Nat) (w1 w2 : World), (do
      M.elem a.1 (a.1 + mulW sz n') sz (a.1 + Min.min k n' * sz)
      M.elem a.1 (a.1 + mulW sz n') sz (a.1 + n' * sz)
      pure (s', (⟨⟨a.1, a.1 + Min.min k n' * sz, a.1 + n' * sz⟩, a.1 + mulW sz n'⟩ : PVec)) : M (A.St × PVec)) w1 = .ok r w2 →
      r.2.v.beg ≠ 0 ∧ r.2.v.beg ≤ r.2.v.fin := fun s' n' w1 w2 e => by
    obtain ⟨_, _, _, e⟩ := bind_ok e
    obtain ⟨_, _, _, e⟩ := bind_ok e
    cases e
    exact ⟨h0, Nat.le_add_right ..⟩
  split at h2
  · obtain ⟨_, _, _, h2⟩ := bind_ok h2
    obtain ⟨_, _, _, h2⟩ := bind_ok h2
    obtain ⟨_, _, _, h2⟩ := bind_ok h2
    exact fin _ _ _ _ h2
  · exact fin _ _ _ _ h2

theorem pushRange_strict (hz : 0 < sz) {p : PVec} {k cap : Nat} (hp : p.Fits sz k cap) (n : Nat) {x : Arg} (hx : x.real) (hn : p.v.beg = 0 → n ≠ 0) :
    PVec.pushRange lax sz A s p n x = PVec.pushRange true sz A s p n x := by
  unfold PVec.pushRange
  refine bind_congr_ok fun _ _ _ _ => bind_congr_ok fun _ _ _ _ => ?_
  by_cases h : (p.v.max - p.v.fin) / sz < n
  · have hn : n ≠ 0 := Nat.ne_of_gt (Nat.lt_of_le_of_lt (Nat.zero_le _) h)
    rw [if_pos h, if_pos h, expand_strict hz hp hn]
    refine bind_congr_ok fun w r w' hr => bind_congr_ok fun _ _ _ _ => ?_
    have := expand_beg hz hp hn w r w' hr
    rw [copyP_ne (by omega) hx]
  · rw [if_neg h, if_neg h]
    refine bind_congr_ok fun _ r _ hr => ?_
    cases hr
    refine bind_congr_ok fun _ _ _ _ => ?_
    have h0 : p.v.beg ≠ 0 := fun e => by
      have h1 := hn e
      have h2 := hp.null e
      subst h2
      have : k = 0 := by have := hp.le; omega
      subst this
      rw [hp.max, hp.fin, Nat.sub_self, Nat.zero_div] at h
      omega
    have h1 : p.v.fin ≠ 0 := by rw [hp.fin]; omega
    have := copyP_ne (lax := lax) (n := n * sz) h1 hx
    simp only [this]
end

section
variable {sz : Nat} {A : Allocator} {s : A.St} {lax : Bool}

theorem ofSize_beg {n : Nat} (w : World) (r : A.St × PVec) (w' : World) (h : PVec.ofSize sz A s n w = .ok r w') : r.2.v.beg = 0 → n = 0 := by
  obtain ⟨a, w1, h1, h2⟩ := bind_ok h
  obtain ⟨_, _, _, h2⟩ := bind_ok h2
  cases h2
  exact grab_null_zero w a w1 h1

theorem ofRange_strict {n : Nat} (hn : n ≠ 0) {x : Arg} (hx : x.real) : PVec.ofRange lax sz A s n x = PVec.ofRange true sz A s n x := by
  unfold PVec.ofRange
  refine bind_congr_ok fun w r w' hr => ?_
  rw [copyP_ne (fun h => hn (ofSize_beg w r w' hr h)) hx]

theorem copy_strict (hz : 0 < sz) {o : PVec} {k cap : Nat} (ho : o.Fits sz k cap) (hk : o.v.beg ≠ 0 → k ≠ 0) :
    PVec.copy lax sz A s o = PVec.copy true sz A s o := by
  unfold PVec.copy
  rw [ho.size hz, pure_bind, pure_bind]
  refine bind_congr_ok fun w r w' hr => ?_
  split
  · rename_i hb
    rw [memcpyP_ne (fun h => hk hb (ofSize_beg w r w' hr h)) hb]
  · rfl

theorem erase_strict {p : PVec} {it : Nat} (h : it ≠ 0) : PVec.erase lax sz p it = PVec.erase true sz p it := by
  unfold PVec.erase
  rw [memmoveP_ne h (by omega)]

theorem eraseRange_strict {p : PVec} {first last : Nat} (h : first ≠ 0) (h' : last ≠ 0) : PVec.eraseRange lax sz p first last = PVec.eraseRange true sz p first last := by
  unfold PVec.eraseRange
  rw [memmoveP_ne h h']

theorem aofSize_beg {n : Nat} (w : World) (r : A.St × PArr) (w' : World) (h : PArr.ofSize sz A s n w = .ok r w') : r.2.v.beg = 0 → n = 0 := by
  obtain ⟨a, w1, h1, h2⟩ := bind_ok h
  obtain ⟨_, _, _, h2⟩ := bind_ok h2
  cases h2
  exact grab_null_zero w a w1 h1

theorem aofRange_strict {n : Nat} (hn : n ≠ 0) {x : Arg} (hx : x.real) : PArr.ofRange lax sz A s n x = PArr.ofRange true sz A s n x := by
  unfold PArr.ofRange
  refine bind_congr_ok fun w r w' hr => ?_
  rw [copyP_ne (fun h => hn (aofSize_beg w r w' hr h)) hx]

theorem acopy_strict (hz : 0 < sz) {o : PArr} {k : Nat} (ho : o.Fits sz k) (hk : o.v.beg ≠ 0 → k ≠ 0) :
    PArr.copy lax sz A s o = PArr.copy true sz A s o := by
  unfold PArr.copy
  rw [ho.size hz, pure_bind, pure_bind]
  refine bind_congr_ok fun w r w' hr => ?_
  split
  · rename_i hb
    rw [memcpyP_ne (fun h => hk hb (aofSize_beg w r w' hr h)) hb]
  · rfl

theorem aresize_strict {p : PArr} {n : Nat} (hn : n ≠ 0) : PArr.resize lax sz A s p n = PArr.resize true sz A s p n := by
  unfold PArr.resize
  refine bind_congr_ok fun _ k _ _ => ?_
  split
  · refine bind_congr_ok fun w r w' hr => ?_
    split
    · rename_i hb; rw [memcpyP_ne (fun h => hn (grab_null_zero w r w' hr h)) hb]
    · rfl
  · rfl

theorem assign_strict (hz : 0 < sz) {p : PArr} {k : Nat} (hp : p.Fits sz k) {n : Nat} (hn : n ≠ 0) {x : Arg} (hx : x.real) :
    PArr.assign lax sz A s p n x = PArr.assign true sz A s p n x := by
  unfold PArr.assign
  refine bind_congr_ok fun w r w' hr => ?_
  rw [copyP_ne (fun h => ?_) hx]
  unfold PArr.assignRoom at hr
  rw [hp.size hz, pure_bind] at hr
  split at hr
  · obtain ⟨a, w1, h1, h2⟩ := bind_ok hr
    obtain ⟨_, _, _, h2⟩ := bind_ok h2
    obtain ⟨_, _, _, h2⟩ := bind_ok h2
    cases h2
    exact hn (grab_null_zero w a w1 h1 h)
  · cases hr
    have := hp.null h
    omega
end

end KTL

import Verif.Containers.Buffer
import Verif.Props.BinaryHeapRun

/- C50: `trivial_buffer` is a fixed-size array with indices modulo its size. -/
namespace KTL

/-! ### Specification -/

/-- The same program on lists of elements. -/
def FOp.spec (xs : List (List (List UInt8))) : FOp → List (List (List UInt8)) × List (List UInt8)
  | .fill i v => (match xs[i]? with
    | some ys => xs.set i (List.replicate ys.length v)
    | none => xs, [])
  | .ofList i vs => (match xs[i]? with
    | some ys => if vs.length ≤ ys.length then xs.set i (vs ++ ys.drop vs.length) else xs
    | none => xs, [])
  | .assign i j l => (match xs[i]?, xs[j]? with
    | some ys, some zs => if i ≠ j ∧ l + ys.length ≤ zs.length then xs.set i ((zs.drop l).take ys.length) else xs
    | _, _ => xs, [])
  | .copy i j => (match xs[i]?, xs[j]? with
    | some ys, some zs => if i ≠ j ∧ ys.length = zs.length then xs.set i zs else xs
    | _, _ => xs, [])
  | .set i k v => (match xs[i]? with
    | some ys => xs.set i (ys.set (k % ys.length) v)
    | none => xs, [])
  | .get i k => (xs, match xs[i]? with
    | some ys => (match ys[k % ys.length]? with
      | some v => [v]
      | none => [])
    | none => [])

def fspec (xs : List (List (List UInt8))) : List FOp → List (List (List UInt8)) × List (List UInt8)
  | [] => (xs, [])
  | o :: os => ((fspec (o.spec xs).1 os).1, (o.spec xs).2 ++ (fspec (o.spec xs).1 os).2)

/-- The elements an operation mentions have the size of the element type. -/
def FOp.Sized (sz : Nat) : FOp → Prop
  | .fill _ v | .set _ _ v => v.length = sz
  | .ofList _ vs => ∀ v ∈ vs, v.length = sz
  | _ => True

/-- The buffers do not overlap and have at least one element. -/
def Laid (sz : Nat) (bs : List Buf) : Prop :=
  (∀ b ∈ bs, 0 < b.n) ∧ bs.Pairwise fun b c => b.addr + b.n * sz ≤ c.addr ∨ c.addr + c.n * sz ≤ b.addr

/-- The memory of `b` holds the elements `ys`. -/
def Stored (sz : Nat) (w : World) (b : Buf) (ys : List (List UInt8)) : Prop :=
  ys.length = b.n ∧ ∀ (k : Nat) (y : List UInt8), ys[k]? = some y → y.length = sz ∧ ∀ j, j < sz → w.heap.b (b.addr + k * sz + j) = y[j]?

/-- All buffers hold their elements. -/
def AllStored (sz : Nat) (w : World) (bs : List Buf) (xs : List (List (List UInt8))) : Prop :=
  xs.length = bs.length ∧ ∀ (i : Nat) (b : Buf) (ys : List (List UInt8)), bs[i]? = some b → xs[i]? = some ys → Stored sz w b ys

/-! ### Proof -/

/-- the memory after a write -/
def World.put (w : World) (p : Nat) (bs : List UInt8) : World :=
  { w with heap := { w.heap with b := fun x => if p ≤ x ∧ x < p + bs.length then bs[x - p]? else w.heap.b x } }

theorem World.put_nil (w : World) (p : Nat) : w.put p [] = w := by
  have : ∀ x, ¬ (p ≤ x ∧ x < p + ([] : List UInt8).length) := fun x => by simp
  unfold World.put
  simp only [this, if_false]

theorem writeBytes_at {w : World} {p : Nat} {bs : List UInt8} (h : ∀ j, j < bs.length → (w.heap.b (p + j)).isSome = true) :
    M.writeBytes p bs w = .ok () (w.put p bs) := by
  induction bs generalizing p w with
  | nil => rw [World.put_nil]; rfl
  | cons e bs ih =>
    have h0 := h 0 (by simp)
    rw [Nat.add_zero] at h0
    obtain ⟨v, hv⟩ := Option.isSome_iff_exists.1 h0
    show (M.store p e >>= fun _ => M.writeBytes (p + 1) bs) w = _
    rw [M.bind_apply]
    unfold M.store
    rw [hv]
    dsimp only
    rw [ih (fun j hj => ?_)]
    · unfold World.put
      congr 2
      show Heap.mk _ _ = Heap.mk _ _
      congr 1
      funext x
      dsimp only
      by_cases hx : x = p
      · subst hx
        rw [if_neg (by omega), if_pos rfl, if_pos (by simp), Nat.sub_self]; rfl
      · by_cases hx' : p ≤ x ∧ x < p + (e :: bs).length
        · have := hx'.2
          rw [List.length_cons] at this
          rw [if_pos (by omega), if_pos hx', show x - p = (x - (p + 1)) + 1 by omega, List.getElem?_cons_succ]
        · rw [if_neg hx', if_neg (by rw [List.length_cons] at hx'; omega), if_neg hx]
    · show (if p + 1 + j = p then some e else w.heap.b (p + 1 + j)).isSome = true
      rw [if_neg (by omega), show p + 1 + j = p + (j + 1) by omega]
      exact h (j + 1) (by simp; omega)

theorem memcpy_at {w : World} {p q n : Nat} (hp : ∀ j, j < n → (w.heap.b (p + j)).isSome = true) (hq : ∀ j, j < n → (w.heap.b (q + j)).isSome = true)
    (hd : p + n ≤ q ∨ q + n ≤ p) :
    ∃ bs : List UInt8, bs.length = n ∧ (∀ j, j < n → bs[j]? = w.heap.b (q + j)) ∧ M.memcpy p q n w = .ok () (w.put p bs) := by
  let bs : List UInt8 := (List.range n).map fun j => (w.heap.b (q + j)).getD 0
  have hl : bs.length = n := by simp [bs]
  have hb : ∀ j, j < n → bs[j]? = w.heap.b (q + j) := fun j hj => by
    obtain ⟨v, hv⟩ := Option.isSome_iff_exists.1 (hq j hj)
    simp [bs, List.getElem?_range hj, hv]
  refine ⟨bs, hl, hb, ?_⟩
  unfold M.memcpy
  rw [if_neg (by omega), M.bind_apply, ← hl, readBytes_at (fun j hj => (hb j (by omega)).symm)]
  exact writeBytes_at (fun j hj => hp j (by omega))

variable {sz : Nat} {w w' : World} {bs : List Buf} {xs : List (List (List UInt8))}

/-- an address inside a buffer is one of an element -/
theorem Stored.isSome (hz : 0 < sz) {b : Buf} {ys : List (List UInt8)} (h : Stored sz w b ys) (j : Nat) (hj : j < b.n * sz) :
    (w.heap.b (b.addr + j)).isSome = true := by
  have hk : j / sz < b.n := Nat.div_lt_of_lt_mul (by rw [Nat.mul_comm]; exact hj)
  have hlt : j / sz < ys.length := by rw [h.1]; exact hk
  obtain ⟨h1, h2⟩ := h.2 _ _ (List.getElem?_eq_getElem hlt)
  have hm := Nat.mod_lt j hz
  have := h2 (j % sz) hm
  rw [show b.addr + j / sz * sz + j % sz = b.addr + j by rw [Nat.add_assoc, Nat.mul_comm, Nat.div_add_mod]] at this
  rw [this, List.getElem?_eq_getElem (by omega)]; rfl

/-- one buffer changes -/
theorem AllStored.update (hb : Laid sz bs) (h : AllStored sz w bs xs) {i : Nat} {b : Buf} (hi : bs[i]? = some b) {ys : List (List UInt8)}
    (hout : ∀ x, ¬ (b.addr ≤ x ∧ x < b.addr + b.n * sz) → w'.heap.b x = w.heap.b x) (hy : Stored sz w' b ys) : AllStored sz w' bs (xs.set i ys) := by
  refine ⟨by rw [List.length_set]; exact h.1, fun j c zs hj hz => ?_⟩
  have hlt := (List.getElem?_eq_some_iff.1 hi).1
  by_cases hij : i = j
  · subst hij
    rw [hi] at hj
    rw [List.getElem?_set_self (by rw [h.1]; exact hlt)] at hz
    obtain rfl := Option.some.inj hj
    obtain rfl := Option.some.inj hz
    exact hy
  · rw [List.getElem?_set_ne hij] at hz
    have hst := h.2 j c zs hj hz
    have hltj := (List.getElem?_eq_some_iff.1 hj).1
    have hdis : b.addr + b.n * sz ≤ c.addr ∨ c.addr + c.n * sz ≤ b.addr := by
      have hp := List.pairwise_iff_getElem.1 hb.2
      have e1 : bs[i] = b := Option.some.inj (by rw [← hi, List.getElem?_eq_getElem hlt])
      have e2 : bs[j] = c := Option.some.inj (by rw [← hj, List.getElem?_eq_getElem hltj])
      rcases Nat.lt_or_gt_of_ne hij with h | h
      · have := hp i j hlt hltj h
        rw [e1, e2] at this; exact this
      · have := hp j i hltj hlt h
        rw [e1, e2] at this; omega
    refine ⟨hst.1, fun k y hk => ?_⟩
    obtain ⟨h1, h2⟩ := hst.2 k y hk
    refine ⟨h1, fun l hl => ?_⟩
    rw [← h2 l hl]
    have hk' : k < c.n := by rw [← hst.1]; exact (List.getElem?_eq_some_iff.1 hk).1
    have hm : (k + 1) * sz ≤ c.n * sz := Nat.mul_le_mul_right _ hk'
    rw [Nat.succ_mul] at hm
    exact hout _ (by omega)

theorem AllStored.get (h : AllStored sz w bs xs) (i : Nat) :
    (bs[i]? = none ∧ xs[i]? = none) ∨ ∃ b ys, bs[i]? = some b ∧ xs[i]? = some ys ∧ Stored sz w b ys := by
  by_cases hi : i < bs.length
  · exact .inr ⟨bs[i], xs[i]'(by rw [h.1]; exact hi), List.getElem?_eq_getElem hi, List.getElem?_eq_getElem _,
      h.2 i _ _ (List.getElem?_eq_getElem hi) (List.getElem?_eq_getElem _)⟩
  · exact .inl ⟨List.getElem?_eq_none (by omega), List.getElem?_eq_none (by rw [h.1]; omega)⟩

/-- only the heap's bytes change, and only in the buffers -/
def Quiet (sz : Nat) (bs : List Buf) (w w' : World) : Prop :=
  w'.heap.t = w.heap.t ∧ ∀ x, (∀ b ∈ bs, ¬ (b.addr ≤ x ∧ x < b.addr + b.n * sz)) → w'.heap.b x = w.heap.b x

/-- writing element `k` -/
theorem Stored.put {b : Buf} {ys : List (List UInt8)} (h : Stored sz w b ys) {k : Nat} (hk : k < b.n) {v : List UInt8} (hv : v.length = sz) :
    (∀ x, ¬ (b.addr ≤ x ∧ x < b.addr + b.n * sz) → (w.put (b.addr + k * sz) v).heap.b x = w.heap.b x) ∧
    Stored sz (w.put (b.addr + k * sz) v) b (ys.set k v) := by
  have hm : (k + 1) * sz ≤ b.n * sz := Nat.mul_le_mul_right _ hk
  rw [Nat.succ_mul] at hm
  refine ⟨fun x hx => ?_, by rw [List.length_set]; exact h.1, fun l y hl => ?_⟩
  · show (if _ then _ else _) = _
    rw [if_neg (by rw [hv]; omega)]
  · by_cases hkl : k = l
    · subst hkl
      rw [List.getElem?_set_self (by rw [h.1]; exact hk)] at hl
      obtain rfl := Option.some.inj hl
      refine ⟨hv, fun j hj => ?_⟩
      show (if _ then _ else _) = _
      rw [if_pos (by omega), Nat.add_sub_cancel_left]
    · rw [List.getElem?_set_ne hkl] at hl
      obtain ⟨h1, h2⟩ := h.2 l y hl
      refine ⟨h1, fun j hj => ?_⟩
      rw [← h2 j hj]
      show (if _ then _ else _) = _
      rw [if_neg]
      rcases Nat.lt_or_gt_of_ne hkl with h | h
      · have hm : (k + 1) * sz ≤ l * sz := Nat.mul_le_mul_right _ h
        rw [Nat.succ_mul] at hm
        omega
      · have hm : (l + 1) * sz ≤ k * sz := Nat.mul_le_mul_right _ h
        rw [Nat.succ_mul] at hm
        omega

theorem Stored.slot (hz : 0 < sz) {b : Buf} {ys : List (List UInt8)} (h : Stored sz w b ys) {k : Nat} (hk : k < b.n) (j : Nat) (hj : j < sz) :
    (w.heap.b (b.addr + k * sz + j)).isSome = true := by
  have hm : (k + 1) * sz ≤ b.n * sz := Nat.mul_le_mul_right _ hk
  rw [Nat.succ_mul] at hm
  rw [Nat.add_assoc]; exact h.isSome hz _ (by omega)

/-- writing a list of elements from position `k` on -/
theorem putAll_at (hz : 0 < sz) {b : Buf} (vs : List (List UInt8)) (hv : ∀ v ∈ vs, v.length = sz) (k : Nat) {ys : List (List UInt8)} {w : World}
    (h : Stored sz w b ys) (hk : k + vs.length ≤ b.n) :
    ∃ w', Buf.putAll sz (b.addr + k * sz) vs w = .ok () w' ∧ w'.heap.t = w.heap.t ∧
      (∀ x, ¬ (b.addr ≤ x ∧ x < b.addr + b.n * sz) → w'.heap.b x = w.heap.b x) ∧ Stored sz w' b (ys.take k ++ (vs ++ ys.drop (k + vs.length))) := by
  induction vs generalizing k ys w with
  | nil => exact ⟨w, rfl, rfl, fun _ _ => rfl, by simpa using h⟩
  | cons v vs ih =>
    rw [List.length_cons] at hk
    have hvl := hv v (by simp)
    obtain ⟨p1, p2⟩ := h.put (k := k) (by omega) hvl
    obtain ⟨w', q1, q2, q3, q4⟩ := ih (fun v hv' => hv v (by simp [hv'])) (k + 1) p2 (by omega)
    refine ⟨w', ?_, q2, fun x hx => by rw [q3 x hx, p1 x hx], ?_⟩
    · show (M.writeBytes (b.addr + k * sz) v >>= fun _ => Buf.putAll sz (b.addr + k * sz + sz) vs) w = _
      rw [M.bind_apply, writeBytes_at (fun j hj => h.slot hz (by omega) j (by omega))]
      dsimp only
      rw [show b.addr + k * sz + sz = b.addr + (k + 1) * sz by rw [Nat.succ_mul]; omega]
      exact q1
    · have hlen : k < ys.length := by rw [h.1]; omega
      have e : (ys.set k v).take (k + 1) ++ (vs ++ (ys.set k v).drop (k + 1 + vs.length)) = ys.take k ++ (v :: vs ++ ys.drop (k + (v :: vs).length)) := by
        rw [List.take_add_one, List.getElem?_set_self hlen, List.take_set_of_le (Nat.le_refl k), List.drop_set_of_lt (by omega), List.length_cons,
          show k + 1 + vs.length = k + (vs.length + 1) by omega]
        simp
      rw [← e]; exact q4

/-- copying `b.n` elements of `c` from `l` on -/
theorem Stored.memcpy (hz : 0 < sz) {b c : Buf} {ys zs : List (List UInt8)} (hb : Stored sz w b ys) (hc : Stored sz w c zs)
    (hd : b.addr + b.n * sz ≤ c.addr ∨ c.addr + c.n * sz ≤ b.addr) {l : Nat} (hl : l + b.n ≤ c.n) :
    ∃ w', M.memcpy b.addr (c.addr + l * sz) (b.n * sz) w = .ok () w' ∧ w'.heap.t = w.heap.t ∧
      (∀ x, ¬ (b.addr ≤ x ∧ x < b.addr + b.n * sz) → w'.heap.b x = w.heap.b x) ∧ Stored sz w' b ((zs.drop l).take b.n) := by
  have hm : (l + b.n) * sz ≤ c.n * sz := Nat.mul_le_mul_right _ hl
  rw [Nat.add_mul] at hm
  obtain ⟨bs, h1, h2, h3⟩ := memcpy_at (w := w) (p := b.addr) (q := c.addr + l * sz) (n := b.n * sz) (fun j hj => hb.isSome hz j hj)
    (fun j hj => by rw [Nat.add_assoc]; exact hc.isSome hz _ (by omega)) (by omega)
  refine ⟨_, h3, rfl, fun x hx => ?_, ?_, fun k y hk => ?_⟩
  · show (if _ then _ else _) = _
    rw [if_neg (by omega)]
  · rw [List.length_take, List.length_drop, hc.1]; omega
  · have hkn : k < b.n := by
      have := (List.getElem?_eq_some_iff.1 hk).1
      rw [List.length_take] at this; omega
    rw [List.getElem?_take_of_lt hkn, List.getElem?_drop] at hk
    obtain ⟨k1, k2⟩ := hc.2 _ y hk
    refine ⟨k1, fun j hj => ?_⟩
    have hm' : (k + 1) * sz ≤ b.n * sz := Nat.mul_le_mul_right _ hkn
    rw [Nat.succ_mul] at hm'
    show (if _ then _ else _) = _
    rw [if_pos (by omega), show b.addr + k * sz + j - b.addr = k * sz + j by omega, h2 _ (by omega), ← k2 j hj, Nat.add_mul]
    congr 1; omega

theorem Laid.apart (hb : Laid sz bs) {i j : Nat} (hij : i ≠ j) {b c : Buf} (hi : bs[i]? = some b) (hj : bs[j]? = some c) :
    b.addr + b.n * sz ≤ c.addr ∨ c.addr + c.n * sz ≤ b.addr := by
  have hp := List.pairwise_iff_getElem.1 hb.2
  have hlt := (List.getElem?_eq_some_iff.1 hi).1
  have hltj := (List.getElem?_eq_some_iff.1 hj).1
  have e1 : bs[i] = b := Option.some.inj (by rw [← hi, List.getElem?_eq_getElem hlt])
  have e2 : bs[j] = c := Option.some.inj (by rw [← hj, List.getElem?_eq_getElem hltj])
  rcases Nat.lt_or_gt_of_ne hij with h | h
  · have := hp i j hlt hltj h
    rw [e1, e2] at this; exact this
  · have := hp j i hltj hlt h
    rw [e1, e2] at this; omega

/-- one operation -/
theorem fstep (hz : 0 < sz) (hb : Laid sz bs) (h : AllStored sz w bs xs) (op : FOp) (hop : op.Sized sz) :
    ∃ w', op.run sz bs w = .ok (op.spec xs).2 w' ∧ AllStored sz w' bs (op.spec xs).1 ∧ Quiet sz bs w w' := by
  have quiet : ∀ {w' : World} {i : Nat} {b : Buf}, bs[i]? = some b → w'.heap.t = w.heap.t →
      (∀ x, ¬ (b.addr ≤ x ∧ x < b.addr + b.n * sz) → w'.heap.b x = w.heap.b x) → Quiet sz bs w w' :=
    fun hi ht hx => ⟨ht, fun x hn => hx x (hn _ (List.mem_of_getElem? hi))⟩
  have none_case : ∃ w', (pure [] : M (List (List UInt8))) w = .ok [] w' ∧ AllStored sz w' bs xs ∧ Quiet sz bs w w' := ⟨w, rfl, h, rfl, fun _ _ => rfl⟩
  cases op with
  | fill i v =>
    rcases h.get i with ⟨h1, h2⟩ | ⟨b, ys, h1, h2, h3⟩
    · simp only [FOp.run, FOp.spec, h1, h2]; exact none_case
    · obtain ⟨w', q1, q2, q3, q4⟩ := putAll_at hz (List.replicate b.n v) (fun u hu => by rw [List.eq_of_mem_replicate hu]; exact hop) 0 h3 (by simp)
      rw [Nat.zero_mul, Nat.add_zero] at q1
      refine ⟨w', ?_, ?_, quiet h1 q2 q3⟩
      · simp only [FOp.run, FOp.spec, h1, Buf.fill]
        rw [M.bind_apply, q1]; rfl
      · simp only [FOp.spec, h2, h3.1]
        refine h.update hb h1 q3 ?_
        rw [List.take_zero, List.nil_append, List.length_replicate, Nat.zero_add, List.drop_of_length_le (by rw [h3.1]; omega), List.append_nil] at q4
        exact q4
  | ofList i vs =>
    rcases h.get i with ⟨h1, h2⟩ | ⟨b, ys, h1, h2, h3⟩
    · simp only [FOp.run, FOp.spec, h1, h2]; exact none_case
    · by_cases hle : vs.length ≤ b.n
      · obtain ⟨w', q1, q2, q3, q4⟩ := putAll_at hz vs hop 0 h3 (by omega)
        rw [Nat.zero_mul, Nat.add_zero] at q1
        refine ⟨w', ?_, ?_, quiet h1 q2 q3⟩
        · simp only [FOp.run, FOp.spec, h1, hle, if_true, Buf.ofList]
          rw [M.bind_apply, q1]; rfl
        · simp only [FOp.spec, h2, h3.1, hle, if_true]
          refine h.update hb h1 q3 ?_
          rw [List.take_zero, List.nil_append, Nat.zero_add] at q4
          exact q4
      · simp only [FOp.run, FOp.spec, h1, h2, h3.1, hle, if_false]; exact none_case
  | assign i j l =>
    rcases h.get i with ⟨h1, h2⟩ | ⟨b, ys, h1, h2, h3⟩
    · simp only [FOp.run, FOp.spec, h1, h2]; exact none_case
    · rcases h.get j with ⟨k1, k2⟩ | ⟨c, zs, k1, k2, k3⟩
      · simp only [FOp.run, FOp.spec, h1, h2, k1, k2]; exact none_case
      · by_cases hc : i ≠ j ∧ l + b.n ≤ c.n
        · obtain ⟨w', q1, q2, q3, q4⟩ := h3.memcpy hz k3 (hb.apart hc.1 h1 k1) hc.2
          refine ⟨w', ?_, ?_, quiet h1 q2 q3⟩
          · simp only [FOp.run, FOp.spec, h1, k1, Buf.assign]
            rw [if_pos hc, M.bind_apply, q1]; rfl
          · simp only [FOp.spec, h2, k2, h3.1, k3.1]
            rw [if_pos hc]
            exact h.update hb h1 q3 q4
        · simp only [FOp.run, FOp.spec, h1, h2, k1, k2, h3.1, k3.1]
          rw [if_neg hc, if_neg hc]; exact none_case
  | copy i j =>
    rcases h.get i with ⟨h1, h2⟩ | ⟨b, ys, h1, h2, h3⟩
    · simp only [FOp.run, FOp.spec, h1, h2]; exact none_case
    · rcases h.get j with ⟨k1, k2⟩ | ⟨c, zs, k1, k2, k3⟩
      · simp only [FOp.run, FOp.spec, h1, h2, k1, k2]; exact none_case
      · by_cases hc : i ≠ j ∧ b.n = c.n
        · obtain ⟨w', q1, q2, q3, q4⟩ := h3.memcpy hz k3 (hb.apart hc.1 h1 k1) (l := 0) (by omega)
          rw [Nat.zero_mul, Nat.add_zero] at q1
          refine ⟨w', ?_, ?_, quiet h1 q2 q3⟩
          · simp only [FOp.run, FOp.spec, h1, k1, Buf.copy]
            rw [if_pos hc, M.bind_apply, q1]; rfl
          · simp only [FOp.spec, h2, k2, h3.1, k3.1]
            rw [if_pos hc]
            rw [List.drop_zero, List.take_of_length_le (by rw [k3.1]; omega)] at q4
            exact h.update hb h1 q3 q4
        · simp only [FOp.run, FOp.spec, h1, h2, k1, k2, h3.1, k3.1]
          rw [if_neg hc, if_neg hc]; exact none_case
  | set i k v =>
    rcases h.get i with ⟨h1, h2⟩ | ⟨b, ys, h1, h2, h3⟩
    · simp only [FOp.run, FOp.spec, h1, h2]; exact none_case
    · have hpos := hb.1 b (List.mem_of_getElem? h1)
      have hk : k % b.n < b.n := Nat.mod_lt _ hpos
      have hvl : v.length = sz := hop
      obtain ⟨p1, p2⟩ := h3.put hk hvl
      refine ⟨_, ?_, ?_, quiet h1 (w' := w.put (b.addr + k % b.n * sz) v) rfl p1⟩
      · simp only [FOp.run, FOp.spec, h1, Buf.set, Buf.elem]
        rw [if_neg (by omega), pure_bind, M.bind_apply, writeBytes_at (fun j hj => h3.slot hz hk j (by omega))]; rfl
      · simp only [FOp.spec, h2, h3.1]
        exact h.update hb h1 p1 p2
  | get i k =>
    rcases h.get i with ⟨h1, h2⟩ | ⟨b, ys, h1, h2, h3⟩
    · simp only [FOp.run, FOp.spec, h1, h2]; exact none_case
    · have hpos := hb.1 b (List.mem_of_getElem? h1)
      have hk : k % b.n < ys.length := by rw [h3.1]; exact Nat.mod_lt _ hpos
      obtain ⟨p1, p2⟩ := h3.2 _ _ (List.getElem?_eq_getElem hk)
      refine ⟨w, ?_, by simp only [FOp.spec]; exact h, rfl, fun _ _ => rfl⟩
      simp only [FOp.run, FOp.spec, h1, h2, Buf.get, Buf.elem, h3.1]
      rw [List.getElem?_eq_getElem hk, if_neg (by omega), pure_bind, M.bind_apply]
      have := readBytes_at (w := w) (p := b.addr + k % b.n * sz) (bs := ys[k % b.n]) (fun j hj => p2 j (by omega))
      rw [p1] at this
      rw [this]; rfl

/-! ### Theorems -/

/-- **C50.** Any program with any number of `trivial_buffer`s (and plain arrays) behaves like the program on lists of elements, in
which `b[k]` is element `k` modulo the size: it reads what the lists say, at the end the memory of the buffers holds the lists, and nothing
else in memory has changed. -/
theorem C50_buffer_is_ring (sz : Nat) (hz : 0 < sz) (bs : List Buf) (hb : Laid sz bs) (ops : List FOp) (hops : ∀ o ∈ ops, o.Sized sz)
    (xs : List (List (List UInt8))) (w : World) (h : AllStored sz w bs xs) :
    ∃ w', frun sz bs ops w = .ok (fspec xs ops).2 w' ∧ AllStored sz w' bs (fspec xs ops).1 ∧ w'.heap.t = w.heap.t ∧
      ∀ x, (∀ b ∈ bs, ¬ (b.addr ≤ x ∧ x < b.addr + b.n * sz)) → w'.heap.b x = w.heap.b x := by
  induction ops generalizing xs w with
  | nil => exact ⟨w, rfl, h, rfl, fun _ _ => rfl⟩
  | cons o os ih =>
    obtain ⟨w1, q1, q2, q3, q4⟩ := fstep hz hb h o (hops o (by simp))
    obtain ⟨w2, p1, p2, p3, p4⟩ := ih (fun o ho => hops o (by simp [ho])) _ w1 q2
    refine ⟨w2, ?_, p2, by rw [p3, q3], fun x hx => by rw [p4 x hx, q4 x hx]⟩
    show (o.run sz bs >>= fun a => frun sz bs os >>= fun as => pure (a ++ as)) w = _
    rw [M.bind_apply, q1]
    show (frun sz bs os >>= fun as => pure ((o.spec xs).2 ++ as)) w1 = _
    rw [M.bind_apply, p1]; rfl

/-- **C50, same element.** `b[i]` and `b[j]` are the same object if and only if the indices are congruent modulo the size; otherwise
they do not overlap. Both lie within the buffer. -/
theorem C50_same_element (sz : Nat) (hz : 0 < sz) (b : Buf) (hb : 0 < b.n) (i j : Nat) (w : World) :
    ∃ p q, b.elem sz i w = .ok p w ∧ b.elem sz j w = .ok q w ∧ (p = q ↔ i % b.n = j % b.n) ∧
      (p ≠ q → p + sz ≤ q ∨ q + sz ≤ p) ∧ b.addr ≤ p ∧ p + sz ≤ b.addr + b.n * sz := by
  refine ⟨b.addr + i % b.n * sz, b.addr + j % b.n * sz, ?_, ?_, ?_, fun hne => ?_, by omega, ?_⟩
  · unfold Buf.elem; rw [if_neg (by omega)]; rfl
  · unfold Buf.elem; rw [if_neg (by omega)]; rfl
  · constructor
    · intro h
      exact Nat.eq_of_mul_eq_mul_right hz (by omega)
    · intro h; rw [h]
  · have hij : i % b.n ≠ j % b.n := fun h => hne (by rw [h])
    rcases Nat.lt_or_gt_of_ne hij with h | h
    · have hm : (i % b.n + 1) * sz ≤ j % b.n * sz := Nat.mul_le_mul_right _ h
      rw [Nat.succ_mul] at hm; omega
    · have hm : (j % b.n + 1) * sz ≤ i % b.n * sz := Nat.mul_le_mul_right _ h
      rw [Nat.succ_mul] at hm; omega
  · have hm : (i % b.n + 1) * sz ≤ b.n * sz := Nat.mul_le_mul_right _ (Nat.mod_lt _ hb)
    rw [Nat.succ_mul] at hm; omega

/-- Assignment of a buffer to itself calls `memcpy` with overlapping arguments: undefined behaviour. -/
theorem C50_self_assignment_false (sz : Nat) (hz : 0 < sz) (b : Buf) (hb : 0 < b.n) (w : World) : b.copy sz b w = .ub := by
  have := Nat.mul_pos hb hz
  unfold Buf.copy M.memcpy
  rw [if_pos (by omega)]; rfl

/-- Without assertions, an initializer list that is too long writes beyond the buffer: here over another one. -/
theorem C50_overlong_list_false : ∃ (w : World) (b c : Buf) (vs : List (List UInt8)), Laid 1 [b, c] ∧ AllStored 1 w [b, c] [[[0], [0]], [[0], [0]]] ∧
    b.n < vs.length ∧ ((b.ofList 1 vs w).test fun _ w' => decide (w'.heap.b c.addr = some 9)) = true := by
  refine ⟨demoWorld 16, ⟨4096, 2⟩, ⟨4098, 2⟩, [[7], [8], [9]], ⟨by simp, by simp⟩, ⟨rfl, fun i b ys hb hy => ?_⟩, by decide, by decide +kernel⟩
  match i with
  | 0 =>
    obtain rfl := Option.some.inj hb
    obtain rfl := Option.some.inj hy
    refine ⟨rfl, fun k y hk => ?_⟩
    match k with
    | 0 => obtain rfl := Option.some.inj hk; exact ⟨rfl, fun j hj => by obtain rfl : j = 0 := by omega
                                                                        rfl⟩
    | 1 => obtain rfl := Option.some.inj hk; exact ⟨rfl, fun j hj => by obtain rfl : j = 0 := by omega
                                                                        rfl⟩
  | 1 =>
    obtain rfl := Option.some.inj hb
    obtain rfl := Option.some.inj hy
    refine ⟨rfl, fun k y hk => ?_⟩
    match k with
    | 0 => obtain rfl := Option.some.inj hk; exact ⟨rfl, fun j hj => by obtain rfl : j = 0 := by omega
                                                                        rfl⟩
    | 1 => obtain rfl := Option.some.inj hk; exact ⟨rfl, fun j hj => by obtain rfl : j = 0 := by omega
                                                                        rfl⟩

/-- the hypotheses of C50 are met, and the program does something -/
example : Laid 2 [⟨4096, 3⟩, ⟨4102, 5⟩] := ⟨by simp, by simp⟩
example : ((frun 2 [⟨4096, 3⟩, ⟨4102, 5⟩] [.fill 1 [1, 2], .set 1 7 [3, 4], .assign 0 1 1, .get 0 4, .get 0 3] (demoWorld 16)).test fun s _ =>
    decide (s = [[3, 4], [1, 2]])) = true := by decide +kernel
example : (fspec [List.replicate 3 [0, 0], List.replicate 5 [0, 0]] [.fill 1 [1, 2], .set 1 7 [3, 4], .assign 0 1 1, .get 0 4, .get 0 3]).2 =
    [[3, 4], [1, 2]] := by decide
example : ∀ o ∈ [FOp.fill 1 [1, 2], .set 1 7 [3, 4], .assign 0 1 1, .get 0 4], o.Sized 2 := by
  simp [FOp.Sized]

end KTL

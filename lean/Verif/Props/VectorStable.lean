import Verif.Props.VectorAlias
import Verif.Props.Reports

/- C74: while a `trivial_vector` has room, its calls leave its block in place; beyond that the capacity grows exactly as written.
Specification first, then the proof. -/
namespace KTL

/-! ### Specification -/

/-- The vector an operation changes or looks at in place; `none` for operations that create, assign or destroy vectors. -/
def VOp.target : VOp → Option Nat
  | .push i _ | .pushRange i _ | .pushFrom i _ _ _ | .erase i _ | .eraseRange i _ _ | .resize i _ | .reserve i _ | .clear i
  | .write i _ _ | .read i _ => some i
  | _ => none

/-- The capacity an operation needs on a vector of `n` elements. -/
def VOp.needs (n : Nat) : VOp → Nat
  | .push _ _ => n + 1
  | .pushRange _ xs => n + xs.length
  | .pushFrom _ _ _ m => n + m
  | .resize _ m | .reserve _ m => m
  | _ => 0

/-- The elements (a half-open range of positions) whose bytes an operation may write, on a vector of `n` elements. -/
def VOp.touches (n : Nat) : VOp → Nat × Nat
  | .push _ _ => (n, n + 1)
  | .pushRange _ xs => (n, n + xs.length)
  | .pushFrom _ _ _ m => (n, n + m)
  | .erase _ k => (k, n)
  | .eraseRange _ a _ => (a, n)
  | .write _ k _ => (k, k + 1)
  | _ => (0, 0)

/-- The two worlds agree, but for the contents of the bytes from `lo` to `hi`: no storage has been obtained or given back, nothing
has been printed. -/
structure SameBut (lo hi : Nat) (w w' : World) : Prop where
  bytes : ∀ a, a < lo ∨ hi ≤ a → w'.heap.b a = w.heap.b a
  blocks : w'.heap.t = w.heap.t
  requests : w'.tick = w.tick
  failed : w'.failed = w.failed
  printed : w'.out = w.out
  log : w'.log = w.log

/-- The capacity after an operation on a vector with `n` elements and capacity `cap`. -/
def VOp.capacityAfter (n cap : Nat) (o : VOp) : Nat :=
  if o.needs n ≤ cap then cap else
    match o with
    | .push _ _ => cap + Max.max (cap / 2) 1
    | .pushRange _ xs => cap + Max.max (cap / 2) xs.length
    | .pushFrom _ _ _ m => cap + Max.max (cap / 2) m
    | .resize _ m => Max.max (cap + cap / 2) m
    | .reserve _ m => m
    | _ => cap

/-- The call meets its preconditions on the size of the elements and on the range given. -/
def VOp.Proper (sz : Nat) (vs : List Vec) : VOp → Prop
  | .push _ x => x.length = sz
  | .pushRange _ xs => ∀ x ∈ xs, x.length = sz
  | .pushFrom i j a n => i ≠ j ∧ ∃ o, vs[j]? = some o ∧ a + n ≤ o.size sz
  | _ => True

/-! ### Proof -/

theorem SameBut.refl (lo hi : Nat) (w : World) : SameBut lo hi w w := ⟨fun _ _ => rfl, rfl, rfl, rfl, rfl, rfl⟩

theorem SameBut.trans {lo hi : Nat} {w1 w2 w3 : World} (h : SameBut lo hi w1 w2) (h' : SameBut lo hi w2 w3) : SameBut lo hi w1 w3 :=
  ⟨fun a ha => (h'.bytes a ha).trans (h.bytes a ha), h'.blocks.trans h.blocks, h'.requests.trans h.requests, h'.failed.trans h.failed,
    h'.printed.trans h.printed, h'.log.trans h.log⟩

/-- `c` only writes from `lo` to `hi`, does not give up, and returns something with `Q`. Proof helper, not code. -/
def Confined {α} (lo hi : Nat) (c : M α) (Q : α → Prop) : Prop := ∀ w,
  match c w with
  | .ok a w' => SameBut lo hi w w' ∧ Q a
  | .oom _ => False
  | .ub => True

namespace Confined

theorem pure {α} {lo hi : Nat} {a : α} {Q : α → Prop} (h : Q a) : Confined lo hi (Pure.pure a) Q := fun w => ⟨.refl _ _ _, h⟩

theorem ub {α} {lo hi : Nat} {Q : α → Prop} : Confined lo hi (M.ub : M α) Q := fun _ => trivial

theorem bind {α β} {lo hi : Nat} {c : M α} {f : α → M β} {R : α → Prop} {Q : β → Prop} (h : Confined lo hi c R)
    (hf : ∀ a, R a → Confined lo hi (f a) Q) : Confined lo hi (c >>= f) Q := fun w => by
  rw [M.bind_apply]
  have h1 := h w
  cases hc : c w with
  | ub => exact trivial
  | oom w1 => rw [hc] at h1; exact h1
  | ok a w1 =>
    rw [hc] at h1
    have h2 := hf a h1.2 w1
    show match f a w1 with
      | .ok a w' => SameBut lo hi w w' ∧ Q a
      | .oom _ => False
      | .ub => True
    cases hq : f a w1 with
    | ub => exact trivial
    | oom w2 => rw [hq] at h2; exact h2
    | ok b w2 => rw [hq] at h2; exact ⟨h1.1.trans h2.1, h2.2⟩

theorem readBytes (lo hi p n : Nat) : Confined lo hi (M.readBytes p n) (fun bs => bs.length = n) := fun w => by
  cases hc : M.readBytes p n w with
  | ub => exact trivial
  | oom w1 => exact readBytes_not_oom _ _ _ _ hc
  | ok a w1 =>
    have : w1 = w := by
      clear lo hi
      induction n generalizing p w a with
      | zero => cases hc; rfl
      | succ n ih =>
        obtain ⟨x, w2, h1, h2⟩ := bind_ok hc
        obtain ⟨xs, w3, h3, h4⟩ := bind_ok h2
        obtain ⟨rfl, rfl⟩ := pure_ok h4
        rw [ih _ _ _ h3]
        unfold M.load at h1
        split at h1 <;> cases h1
        rfl
    subst this
    exact ⟨.refl _ _ _, Linear.readBytes_length n p _ _ _ hc⟩

theorem writeBytes (lo hi p : Nat) (bs : List UInt8) (h : bs = [] ∨ (lo ≤ p ∧ p + bs.length ≤ hi)) :
    Confined lo hi (M.writeBytes p bs) (fun _ => True) := by
  induction bs generalizing p with
  | nil => exact Confined.pure trivial
  | cons x xs ih =>
    obtain ⟨h1, h2⟩ := h.resolve_left (by simp)
    rw [List.length_cons] at h2
    refine Confined.bind (R := fun _ => True) (fun w => ?_) (fun _ _ => ih (p + 1) (.inr ⟨by omega, by omega⟩))
    unfold M.store
    cases hb : w.heap.b p with
    | none => exact trivial
    | some v => exact ⟨⟨fun a ha => if_neg (by omega), rfl, rfl, rfl, rfl, rfl⟩, trivial⟩

theorem memmove (lo hi dst src n : Nat) (h : n = 0 ∨ (lo ≤ dst ∧ dst + n ≤ hi)) : Confined lo hi (M.memmove dst src n) (fun _ => True) :=
  Confined.bind (readBytes _ _ _ _) fun bs hb => writeBytes _ _ _ _ (by
    rcases h with h | h
    · left; exact List.length_eq_zero_iff.1 (hb.trans h)
    · right; omega)

theorem memcpy (lo hi dst src n : Nat) (h : n = 0 ∨ (lo ≤ dst ∧ dst + n ≤ hi)) : Confined lo hi (M.memcpy dst src n) (fun _ => True) := by
  unfold M.memcpy
  split
  · exact ub
  · exact memmove lo hi dst src n h

theorem argCopy (lo hi dst n : Nat) (x : Arg) (hx : ∀ bs, x = .val bs → bs.length = n) (h : lo ≤ dst ∧ dst + n ≤ hi) :
    Confined lo hi (x.copy dst n) (fun _ => True) := by
  cases x with
  | val bs => exact writeBytes _ _ _ _ (.inr (by rw [hx bs rfl]; exact h))
  | ref a => exact memcpy _ _ _ _ _ (.inr h)

theorem argFetch (lo hi n : Nat) (x : Arg) (hx : ∀ bs, x = .val bs → bs.length = n) :
    Confined lo hi (x.fetch n) (fun bs => bs.length = n) := by
  cases x with
  | val bs => exact pure (hx bs rfl)
  | ref a => exact readBytes _ _ _ _

end Confined

/-- a step that stays in place. Proof helper, not code. -/
def StaysPut {A : Allocator} (c : Vecs A) (i : Nat) (v : Vec) (c' : Vecs A) : Prop :=
  c'.st = c.st ∧ ∃ v', c'.vs = c.vs.set i v' ∧ v'.beg = v.beg ∧ v'.max = v.max

theorem set_get {α} {l : List α} {i : Nat} {a : α} (h : l[i]? = some a) : l = l.set i a := by
  obtain ⟨hi, rfl⟩ := List.getElem?_eq_some_iff.1 h
  exact (List.set_getElem_self hi).symm

theorem room_flatten {sz : Nat} {xs : List (List UInt8)} (h : ∀ x ∈ xs, x.length = sz) : xs.flatten.length = xs.length * sz :=
  Elems.length (sz := sz) h

theorem step_in_place {A : Allocator} (sz : Nat) (hz : 0 < sz) (c : Vecs A) (o : VOp) (i : Nat) (v : Vec) (n m : Nat) (ho : o.target = some i)
    (hi : c.vs[i]? = some v) (hv : v.fin = v.beg + n * sz) (hm : v.max = v.beg + m * sz) (hn : n ≤ m) (hroom : o.needs n ≤ m) :
    Confined (v.beg + (o.touches n).1 * sz) (v.beg + (o.touches n).2 * sz) (c.step sz o) (StaysPut c i v) := by
  have hs : v.size sz = n := size_of_shape hz hv
  have hc : v.capacity sz = m := capacity_of_shape hz hm
  have hsame : StaysPut c i v c := ⟨rfl, v, set_get hi, rfl, rfl⟩
  have hput : ∀ (v' : Vec) (seen : List (List UInt8)), v'.beg = v.beg → v'.max = v.max →
      StaysPut c i v { st := c.st, vs := c.vs.set i v', seen := seen } := fun v' _ e1 e2 => ⟨rfl, v', rfl, e1, e2⟩
  have hroom' : (v.max - v.fin) / sz = m - n := by
    rw [hv, hm, Nat.add_sub_add_left, ← Nat.sub_mul, Nat.mul_div_cancel _ hz]
  cases o with
  | push i' x =>
    obtain rfl := Option.some.inj ho
    simp only [VOp.needs] at hroom
    simp only [Vecs.step, hi]
    split
    · rename_i hx
      have hf : v.fin ≠ v.max := by
        rw [hv, hm]; intro h
        have := Nat.eq_of_mul_eq_mul_right hz (show n * sz = m * sz by omega)
        omega
      refine Confined.bind (R := fun r => r.2.1 = c.st ∧ r.2.2.beg = v.beg ∧ r.2.2.max = v.max) ?_ (fun r hr => ?_)
      · unfold Vec.pushBack
        rw [if_neg hf]
        refine Confined.bind (R := fun r => r = (c.st, v)) (.pure rfl) (fun r hr => ?_)
        subst hr
        refine Confined.bind (Confined.argFetch _ _ _ _ (fun bs e => by cases e; exact hx)) (fun bs hb => ?_)
        refine Confined.bind (Confined.writeBytes _ _ _ _ (.inr ?_)) (fun _ _ => .pure ⟨rfl, rfl, rfl⟩)
        show v.beg + n * sz ≤ v.fin ∧ v.fin + bs.length ≤ v.beg + (n + 1) * sz
        rw [hv, hb, Nat.succ_mul]; omega
      · refine Confined.bind (Confined.readBytes _ _ _ _) (fun y _ => .pure ?_)
        rw [hr.1]
        exact hput _ _ hr.2.1 hr.2.2
    · exact .pure hsame
  | pushRange i' xs =>
    obtain rfl := Option.some.inj ho
    simp only [VOp.needs] at hroom
    simp only [Vecs.step, hi]
    split
    · rename_i hx
      refine Confined.bind (R := fun r => r.2.1 = c.st ∧ r.2.2.beg = v.beg ∧ r.2.2.max = v.max) ?_ (fun r hr => ?_)
      · unfold Vec.pushRange
        rw [if_neg (by rw [hroom']; omega)]
        refine Confined.bind (R := fun r => r = (c.st, v)) (.pure rfl) (fun r hr => ?_)
        subst hr
        refine Confined.bind (Confined.argCopy _ _ _ _ _ (fun bs e => by cases e; exact room_flatten hx) ?_) (fun _ _ => .pure ⟨rfl, rfl, rfl⟩)
        show v.beg + n * sz ≤ v.fin ∧ v.fin + xs.length * sz ≤ v.beg + (n + xs.length) * sz
        rw [hv, Nat.add_mul]; omega
      · refine Confined.bind (Confined.readBytes _ _ _ _) (fun y _ => .pure ?_)
        rw [hr.1]
        exact hput _ _ hr.2.1 hr.2.2
    · exact .pure hsame
  | pushFrom i' j a k =>
    obtain rfl := Option.some.inj ho
    simp only [VOp.needs] at hroom
    cases hj : c.vs[j]? with
    | none => simp only [Vecs.step, hi, hj]; exact .pure hsame
    | some o =>
      simp only [Vecs.step, hi, hj]
      split
      · refine Confined.bind (R := fun r => r.2.1 = c.st ∧ r.2.2.beg = v.beg ∧ r.2.2.max = v.max) ?_ (fun r hr => ?_)
        · unfold Vec.pushRange
          rw [if_neg (by rw [hroom']; omega)]
          refine Confined.bind (R := fun r => r = (c.st, v)) (.pure rfl) (fun r hr => ?_)
          subst hr
          refine Confined.bind (Confined.argCopy _ _ _ _ _ (fun bs e => by cases e) ?_) (fun _ _ => .pure ⟨rfl, rfl, rfl⟩)
          show v.beg + n * sz ≤ v.fin ∧ v.fin + k * sz ≤ v.beg + (n + k) * sz
          rw [hv, Nat.add_mul]; omega
        · refine Confined.bind (Confined.readBytes _ _ _ _) (fun y _ => .pure ?_)
          rw [hr.1]
          exact hput _ _ hr.2.1 hr.2.2
      · exact .pure hsame
  | erase i' k =>
    obtain rfl := Option.some.inj ho
    simp only [Vecs.step, hi]
    split
    · rename_i hk
      rw [hs] at hk
      refine Confined.bind (R := fun r => r.2.beg = v.beg ∧ r.2.max = v.max) ?_ (fun r hr => ?_)
      · unfold Vec.erase
        refine Confined.bind (Confined.memmove _ _ _ _ _ (.inr ?_)) (fun _ _ => .pure ⟨rfl, rfl⟩)
        show v.beg + k * sz ≤ v.beg + k * sz ∧ v.beg + k * sz + ((v.fin - (v.beg + k * sz)) / sz - 1) * sz ≤ v.beg + n * sz
        rw [hv, Nat.add_sub_add_left, ← Nat.sub_mul, Nat.mul_div_cancel _ hz]
        have : k * sz + (n - k - 1) * sz ≤ n * sz := by rw [← Nat.add_mul]; exact Nat.mul_le_mul_right _ (by omega)
        omega
      · exact Confined.bind (Confined.readBytes _ _ _ _) (fun y _ => .pure (hput _ _ hr.1 hr.2))
    · exact .pure hsame
  | eraseRange i' a k =>
    obtain rfl := Option.some.inj ho
    simp only [Vecs.step, hi]
    split
    · rename_i hk
      rw [hs] at hk
      refine Confined.bind (R := fun r => r.2.beg = v.beg ∧ r.2.max = v.max) ?_ (fun r hr => ?_)
      · unfold Vec.eraseRange
        refine Confined.bind (Confined.memmove _ _ _ _ _ (.inr ?_)) (fun _ _ => .pure ⟨rfl, rfl⟩)
        show v.beg + a * sz ≤ v.beg + a * sz ∧ v.beg + a * sz + (v.fin - (v.beg + (a + k) * sz)) / sz * sz ≤ v.beg + n * sz
        rw [hv, Nat.add_sub_add_left, ← Nat.sub_mul, Nat.mul_div_cancel _ hz]
        have : a * sz + (n - (a + k)) * sz ≤ n * sz := by rw [← Nat.add_mul]; exact Nat.mul_le_mul_right _ (by omega)
        omega
      · exact Confined.bind (Confined.readBytes _ _ _ _) (fun y _ => .pure (hput _ _ hr.1 hr.2))
    · exact .pure hsame
  | resize i' k =>
    obtain rfl := Option.some.inj ho
    simp only [VOp.needs] at hroom
    simp only [Vecs.step, hi]
    unfold Vec.resize
    rw [if_neg (by rw [hc]; omega)]
    exact .pure (hput _ _ rfl rfl)
  | reserve i' k =>
    obtain rfl := Option.some.inj ho
    simp only [VOp.needs] at hroom
    simp only [Vecs.step, hi]
    unfold Vec.reserve
    rw [if_neg (by rw [hc]; omega)]
    exact .pure (hput _ _ rfl rfl)
  | clear i' =>
    obtain rfl := Option.some.inj ho
    simp only [Vecs.step, hi]
    exact .pure (hput _ _ rfl rfl)
  | write i' k x =>
    obtain rfl := Option.some.inj ho
    simp only [Vecs.step, hi]
    split
    · rename_i hk
      unfold Vec.write
      refine Confined.bind (Confined.writeBytes _ _ _ _ (.inr ?_)) (fun _ _ => .pure hsame)
      show v.beg + k * sz ≤ v.beg + k * sz ∧ v.beg + k * sz + x.length ≤ v.beg + (k + 1) * sz
      rw [hk.2, Nat.succ_mul]; omega
    · exact .pure hsame
  | read i' k =>
    obtain rfl := Option.some.inj ho
    simp only [Vecs.step, hi]
    split
    · exact Confined.bind (Confined.readBytes _ _ _ _) (fun y _ => .pure hsame)
    · exact .pure hsame
  | new => cases ho
  | newSize => cases ho
  | newFill => cases ho
  | newRange => cases ho
  | copy => cases ho
  | move => cases ho
  | copyAssign => cases ho
  | moveAssign => cases ho
  | destroy => cases ho

theorem pushRange_capacity {sz : Nat} (hz : 0 < sz) {A : Allocator} {s : A.St} {v : Vec} {k m : Nat} {x : Arg} {w w' : World}
    {r : Nat × A.St × Vec} (h : v.pushRange sz A s k x w = .ok r w') (hc : v.capacity sz = m) (hk : (v.max - v.fin) / sz < k) :
    r.2.2.capacity sz = m + Max.max (m / 2) k := by
  unfold Vec.pushRange at h
  rw [if_pos hk] at h
  obtain ⟨q, w1, h1, h2⟩ := bind_ok h
  obtain ⟨_, w2, h3, h4⟩ := bind_ok h2
  obtain ⟨rfl, rfl⟩ := pure_ok h4
  unfold Vec.expand at h1
  have := capacity_of_shape hz (setSize_shape h1).2
  rw [hc] at this
  exact this

theorem vrun_snoc {A : Allocator} (sz : Nat) (c : Vecs A) (ops : List VOp) (o : VOp) :
    c.run sz (ops ++ [o]) = (c.run sz ops >>= fun c' => c'.step sz o) := by
  induction ops generalizing c with
  | nil =>
    show (c.step sz o >>= fun c' => pure c') = (pure c >>= fun c' => c'.step sz o)
    rw [bind_pure, pure_bind]
  | cons p ops ih =>
    show (c.step sz p >>= fun c' => c'.run sz (ops ++ [o])) = ((c.step sz p >>= fun c' => c'.run sz ops) >>= fun c' => c'.step sz o)
    rw [bind_assoc]
    congr 1
    funext c'
    exact ih c'

theorem vplay_snoc (sz : Nat) (A : Allocator) (b : Nat) (ops : List VOp) (o : VOp) :
    vplay sz A b (ops ++ [o]) = (vplay sz A b ops >>= fun c => c.step sz o) := by
  unfold vplay
  rw [bind_assoc]
  congr 1
  funext s
  exact vrun_snoc sz _ ops o

theorem weights_append (ops : List VOp) (o : VOp) : weights (ops ++ [o]) = weights ops + o.weight := by
  induction ops with
  | nil => show o.weight + 0 = 0 + o.weight; omega
  | cons p ops ih => show p.weight + weights (ops ++ [o]) = p.weight + weights ops + o.weight; rw [ih]; omega

theorem VSane.prefix {t : AllocTy} {sz : Nat} {ops : List VOp} {o : VOp} (h : VSane t sz (ops ++ [o])) : VSane t sz ops := by
  refine ⟨?_, fun ⟨p, hp, hq⟩ => h.2 ⟨p, by simp [hp], hq⟩⟩
  have h1 := h.1
  rw [weights_append] at h1
  have : sz * (2 * weights ops) ≤ sz * (2 * (weights ops + o.weight)) := Nat.mul_le_mul_left _ (by omega)
  omega

/-- the fields of a vector after any history -/
theorem vplay_shape (sys : Sys) (t : AllocTy) (hwf : t.WF) (b : Nat) (w : World) (hs : Storage w b t.size)
    (sz : Nat) (hz : 0 < sz) (ops : List VOp) (hops : VSane t sz ops) (c : Vecs (t.denote sys)) (w' : World)
    (hrun : vplay sz (t.denote sys) b ops w = .ok c w') (i : Nat) (v : Vec) (hi : c.vs[i]? = some v) :
    ∃ n m, v.fin = v.beg + n * sz ∧ v.max = v.beg + m * sz ∧ n ≤ m := by
  obtain ⟨h0, hf, hd, he, hb, hfb, hft⟩ := storage_split hs
  have hfit := hops.fits hwf hz sys.plat
  have := vplay_spec (t.sound sys hwf) b sz hz ops hfit.1 hfit.2 hs.1 hs.2.1 (by rw [t.objSize_eq]; exact hs.2.2.1) w h0 hf hd he
    (by rw [t.objSize_eq]; exact hb)
  rw [hrun] at this
  obtain ⟨⟨h', hd', he', S, hrun, Γ, hv, hx, hseen, hok, hpool⟩, hna⟩ := this
  rcases VInv.get hv hx i with ⟨_, h2, _⟩ | ⟨g, h1, h1', h2, h3⟩
  · rw [h2] at hi; cases hi
  · rw [h2] at hi
    obtain rfl := Option.some.inj hi
    have hg := (hok g h1').rep
    exact ⟨_, _, hg.fin, hg.max, hg.le⟩

/-- **C74**, room. After any history, a call on vector `i` that needs no more than its `capacity()` — `push_back` of one element or of a
range, `resize`, `reserve`, `erase`, `clear`, and access — ends normally, does not use the allocator, leaves `data()` and
`capacity()` of every vector as they are, and writes no byte but those of the elements it adds, moves or assigns: pointers,
references and iterators into all vectors stay valid, and all the elements before the point of change stay in place. -/
theorem C74_stable_within_capacity (sys : Sys) (t : AllocTy) (hwf : t.WF) (b : Nat) (w : World) (hs : Storage w b t.size)
    (sz : Nat) (hz : 0 < sz) (ops : List VOp) (o : VOp) (hops : VSane t sz (ops ++ [o])) (c : Vecs (t.denote sys)) (w1 : World)
    (hrun : vplay sz (t.denote sys) b ops w = .ok c w1) (i : Nat) (v : Vec) (ho : o.target = some i) (hi : c.vs[i]? = some v)
    (hroom : o.needs (v.size sz) ≤ v.capacity sz) :
    ∃ c' w2, c.step sz o w1 = .ok c' w2 ∧ c'.st = c.st ∧
      (∀ j : Nat, (c'.vs[j]?).map Vec.beg = (c.vs[j]?).map Vec.beg ∧ (c'.vs[j]?).map (Vec.capacity sz) = (c.vs[j]?).map (Vec.capacity sz)) ∧
      (∀ j : Nat, j ≠ i → c'.vs[j]? = c.vs[j]?) ∧
      SameBut (v.beg + (o.touches (v.size sz)).1 * sz) (v.beg + (o.touches (v.size sz)).2 * sz) w1 w2 := by
  obtain ⟨n, m, hv, hm, hn⟩ := vplay_shape sys t hwf b w hs sz hz ops hops.prefix c w1 hrun i v hi
  have hs' : v.size sz = n := size_of_shape hz hv
  have hc' : v.capacity sz = m := capacity_of_shape hz hm
  rw [hs', hc'] at hroom
  rw [hs']
  have key := step_in_place sz hz c o i v n m ho hi hv hm hn hroom w1
  have hub := C42_vector_is_sequence sys t hwf b w hs sz hz (ops ++ [o]) hops
  rw [vplay_snoc, bind_of_ok hrun] at hub
  cases hst : c.step sz o w1 with
  | ub => rw [hst] at hub; exact hub.elim
  | oom w2 => rw [hst] at key; exact key.elim
  | ok c' w2 =>
    rw [hst] at key
    obtain ⟨k1, k2, v', k3, k4, k5⟩ := key
    refine ⟨c', w2, rfl, k2, fun j => ?_, fun j hj => ?_, k1⟩
    · rw [k3]
      by_cases hj : i = j
      · subst hj
        obtain ⟨hlt, -⟩ := List.getElem?_eq_some_iff.1 hi
        rw [List.getElem?_set_self hlt, hi]
        simp [k4, Vec.capacity, k5]
      · rw [List.getElem?_set_ne hj]; exact ⟨rfl, rfl⟩
    · rw [k3, List.getElem?_set_ne (Ne.symm hj)]

/-- a vector with two elements and room for three, over the demo allocator, and calls that fit -/
example : ((vplay 4 (mallocator (demoSys .direct)) 4096 [.new, .reserve 0 3, .push 0 [1, 2, 3, 4], .push 0 [5, 6, 7, 8]]
    (demoWorld 4)).test fun c w => match c.vs[0]? with
    | some v => decide (v.size 4 = 2 ∧ v.capacity 4 = 3 ∧ (VOp.push 0 [9, 9, 9, 9]).needs 2 ≤ 3 ∧ (VOp.resize 0 3).needs 2 ≤ 3) &&
        (c.step 4 (.push 0 [9, 9, 9, 9]) w).test fun c' w' => decide (c'.vs[0]?.map Vec.beg = some v.beg ∧ w'.heap.b v.beg = some 1)
    | none => false) = true := by decide +kernel

/-- **C74**, growth. After any history, a call that needs more than `capacity()` leaves exactly the capacity the growth rule says — one half
more than before, or what the call needs — and the vectors it is not called on as they were. -/
theorem C74_growth_exact (sys : Sys) (t : AllocTy) (hwf : t.WF) (b : Nat) (w : World) (hs : Storage w b t.size)
    (sz : Nat) (hz : 0 < sz) (ops : List VOp) (o : VOp) (hops : VSane t sz ops) (c : Vecs (t.denote sys)) (w1 : World)
    (hrun : vplay sz (t.denote sys) b ops w = .ok c w1) (i : Nat) (v : Vec) (ho : o.target = some i) (hi : c.vs[i]? = some v)
    (hpr : o.Proper sz c.vs) (c' : Vecs (t.denote sys)) (w2 : World) (hstep : c.step sz o w1 = .ok c' w2) :
    (∃ v', c'.vs = c.vs.set i v' ∧ v'.capacity sz = o.capacityAfter (v.size sz) (v.capacity sz)) := by
  obtain ⟨n, m, hv, hm, hn⟩ := vplay_shape sys t hwf b w hs sz hz ops hops c w1 hrun i v hi
  have hs' : v.size sz = n := size_of_shape hz hv
  have hc' : v.capacity sz = m := capacity_of_shape hz hm
  by_cases hroom : o.needs n ≤ m
  · have key := step_in_place sz hz c o i v n m ho hi hv hm hn hroom w1
    rw [hstep] at key
    obtain ⟨_, -, v', k3, k4, k5⟩ := key
    refine ⟨v', k3, ?_⟩
    rw [hs', hc']
    unfold VOp.capacityAfter
    rw [if_pos hroom, ← hc']
    unfold Vec.capacity
    rw [k4, k5]
  · have hroom' : (v.max - v.fin) / sz = m - n := by
      rw [hv, hm, Nat.add_sub_add_left, ← Nat.sub_mul, Nat.mul_div_cancel _ hz]
    rw [hs', hc']
    unfold VOp.capacityAfter
    rw [if_neg hroom]
    cases o with
    | push i' x =>
      obtain rfl := Option.some.inj ho
      simp only [VOp.needs] at hroom
      simp only [Vecs.step, hi] at hstep
      rw [if_pos (show x.length = sz from hpr)] at hstep
      obtain ⟨r, w3, h1, h2⟩ := bind_ok hstep
      obtain ⟨y, w4, h3, h4⟩ := bind_ok h2
      obtain ⟨rfl, rfl⟩ := pure_ok h4
      obtain ⟨cap', -, e2, e3⟩ := push_shape hz h1 hv hm hn
      refine ⟨_, rfl, ?_⟩
      rw [capacity_of_shape hz e2]
      rcases e3 with ⟨q, -⟩ | ⟨-, q⟩
      · omega
      · exact q
    | pushRange i' xs =>
      obtain rfl := Option.some.inj ho
      simp only [VOp.needs] at hroom
      simp only [Vecs.step, hi] at hstep
      rw [if_pos (show ∀ x ∈ xs, x.length = sz from hpr)] at hstep
      obtain ⟨r, w3, h1, h2⟩ := bind_ok hstep
      obtain ⟨y, w4, h3, h4⟩ := bind_ok h2
      obtain ⟨rfl, rfl⟩ := pure_ok h4
      exact ⟨_, rfl, pushRange_capacity hz h1 hc' (by rw [hroom']; omega)⟩
    | pushFrom i' j a k =>
      obtain rfl := Option.some.inj ho
      simp only [VOp.needs] at hroom
      obtain ⟨hij, q, hj, hq⟩ := hpr
      simp only [Vecs.step, hi, hj] at hstep
      rw [if_pos ⟨hij, hq⟩] at hstep
      obtain ⟨r, w3, h1, h2⟩ := bind_ok hstep
      obtain ⟨y, w4, h3, h4⟩ := bind_ok h2
      obtain ⟨rfl, rfl⟩ := pure_ok h4
      exact ⟨_, rfl, pushRange_capacity hz h1 hc' (by rw [hroom']; omega)⟩
    | resize i' k =>
      obtain rfl := Option.some.inj ho
      simp only [VOp.needs] at hroom
      simp only [Vecs.step, hi] at hstep
      obtain ⟨r, w3, h1, h2⟩ := bind_ok hstep
      obtain ⟨rfl, rfl⟩ := pure_ok h2
      refine ⟨_, rfl, ?_⟩
      unfold Vec.resize at h1
      rw [if_pos (by rw [hc']; omega)] at h1
      obtain ⟨q, w4, h3, h4⟩ := bind_ok h1
      obtain ⟨rfl, rfl⟩ := pure_ok h4
      unfold Vec.expand at h3
      have := capacity_of_shape hz (setSize_shape h3).2
      rw [hc'] at this
      show q.2.capacity sz = _
      rw [this]
      show m + Max.max (m / 2) (k - m) = Max.max (m + m / 2) k
      omega
    | reserve i' k =>
      obtain rfl := Option.some.inj ho
      simp only [VOp.needs] at hroom
      simp only [Vecs.step, hi] at hstep
      obtain ⟨r, w3, h1, h2⟩ := bind_ok hstep
      obtain ⟨rfl, rfl⟩ := pure_ok h2
      refine ⟨_, rfl, ?_⟩
      unfold Vec.reserve at h1
      rw [if_pos (by rw [hc']; omega)] at h1
      exact capacity_of_shape hz (setSize_shape h1).2
    | erase => exact absurd (Nat.zero_le _) hroom
    | eraseRange => exact absurd (Nat.zero_le _) hroom
    | clear => exact absurd (Nat.zero_le _) hroom
    | write => exact absurd (Nat.zero_le _) hroom
    | read => exact absurd (Nat.zero_le _) hroom
    | new => cases ho
    | newSize => cases ho
    | newFill => cases ho
    | newRange => cases ho
    | copy => cases ho
    | move => cases ho
    | copyAssign => cases ho
    | moveAssign => cases ho
    | destroy => cases ho

/-- the same vector, when it has to grow -/
example : ((vplay 4 (mallocator (demoSys .direct)) 4096 [.new, .reserve 0 2, .push 0 [1, 2, 3, 4], .push 0 [5, 6, 7, 8]]
    (demoWorld 4)).test fun c w => match c.vs[0]? with
    | some v => decide (v.size 4 = 2 ∧ v.capacity 4 = 2) &&
        (c.step 4 (.push 0 [9, 9, 9, 9]) w).test (fun c' _ => decide (c'.vs[0]?.map (Vec.capacity 4) = some 3 ∧ c'.vs[0]?.map Vec.beg ≠ some v.beg)) &&
        (c.step 4 (.resize 0 9) w).test (fun c' _ => decide (c'.vs[0]?.map (Vec.capacity 4) = some 9)) &&
        (c.step 4 (.pushRange 0 [[0, 0, 0, 0], [1, 1, 1, 1]]) w).test fun c' _ => decide (c'.vs[0]?.map (Vec.capacity 4) = some 4)
    | none => false) = true := by decide +kernel

example : VSane demoTy 4 [.new, .reserve 0 3, .push 0 [1, 2, 3, 4], .push 0 [5, 6, 7, 8], .resize 0 3] := by
  refine ⟨by decide, ?_⟩
  rintro ⟨o, ho, h⟩
  revert h
  simp only [List.mem_cons, List.not_mem_nil, or_false] at ho
  rcases ho with rfl | rfl | rfl | rfl | rfl <;> decide

end KTL

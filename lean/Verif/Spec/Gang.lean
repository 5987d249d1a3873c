import Verif.Conc.BodySafe
import Verif.Conc.Gang
import Verif.Spec.Crew

/- Proof machinery for threads that move while another one is inside a call of the allocator. -/
namespace KTL

/-- The addresses that the call accesses, or frees, in its next step. -/
def Body.touches {g : Bool} {α : Type} (h : Heap) : Body g α → Nat → Prop
  | .load p _, x => x = p
  | .store p _ _, x => x = p
  | .free _ p _, x => p ≠ 0 ∧ ∃ n, h.t p = some n ∧ p ≤ x ∧ x < p + n
  | _, _ => False

/-- The addresses that the thread accesses, or gives back, in its next step. -/
def Gang.touches {X : BAlloc} {α : Type} (T : Gang X α) (h : Heap) (i : Nat) (x : Nat) : Prop :=
  match T.holds i with
  | some (.taking y _) => y.touches h x
  | some (.giving y _) => y.touches h x
  | none => (T.threads i).touches x

theorem Heap.setB_disj {h k : Heap} {p : Nat} {v : UInt8} (hp : (h.b p).isSome = true) (hd : Heap.disj h k) : Heap.disj (h.setB p v) k := by
  refine ⟨fun x => ?_, hd.2⟩
  show (if x = p then some v else h.b x) = none ∨ k.b x = none
  by_cases e : x = p
  · subst e
    rcases hd.1 x with e' | e'
    · rw [e'] at hp; cases hp
    · exact .inr e'
  · rw [if_neg e]; exact hd.1 x

theorem Heap.setB_add {h k : Heap} {p : Nat} {v : UInt8} : (h.setB p v).add k = (h.add k).setB p v := by
  apply Heap.ext' <;> intro x
  · show (if x = p then some v else h.b x).or (k.b x) = if x = p then some v else (h.b x).or (k.b x)
    by_cases e : x = p <;> simp [e]
  · rfl

theorem Heap.cut_disj {h k : Heap} {a n : Nat} (hd : Heap.disj h k) : Heap.disj (h.cut a n) k := by
  refine ⟨fun x => ?_, fun x => ?_⟩
  · show (if a ≤ x ∧ x < a + n then none else h.b x) = none ∨ _
    split
    · exact .inl rfl
    · exact hd.1 x
  · show (if x = a then none else h.t x) = none ∨ _
    split
    · exact .inl rfl
    · exact hd.2 x

theorem Heap.cut_add {h k : Heap} {a n : Nat} (hd : Heap.disj h k) (ht : h.t a = some n) (hb : h.hasBytes a n = true) :
    (h.cut a n).add k = (h.add k).cut a n := by
  apply Heap.ext' <;> intro x
  · show (if a ≤ x ∧ x < a + n then none else h.b x).or (k.b x) = if a ≤ x ∧ x < a + n then none else (h.b x).or (k.b x)
    by_cases e : a ≤ x ∧ x < a + n
    · rw [if_pos e, if_pos e]
      have := Heap.hasBytes_iff.1 hb x e.1 e.2
      rcases hd.1 x with e' | e'
      · rw [e'] at this; cases this
      · rw [e']; rfl
    · rw [if_neg e, if_neg e]
  · show (if x = a then none else h.t x).or (k.t x) = if x = a then none else (h.t x).or (k.t x)
    by_cases e : x = a
    · subst e
      rw [if_pos rfl, if_pos rfl]
      rcases hd.2 x with e' | e'
      · rw [e'] at ht; cases ht
      · rw [e']; rfl
    · rw [if_neg e, if_neg e]

namespace Body
variable {g : Bool} {α : Type}

theorem Safely.mono {plat : Plat} {Q Q' : α → HProp} (hQ : ∀ a h, Q a h → Q' a h) {fl : Bool} {x : Body g α} {h : Heap}
    (hs : x.Safely plat Q fl h) : x.Safely plat Q' fl h := by
  induction x generalizing fl h with
  | ret a => exact hQ a h hs
  | ub => exact hs
  | null _ => exact hs
  | load p k ih => obtain ⟨v, hv, hk⟩ := hs; exact ⟨v, hv, ih v hk⟩
  | store p v k ih => exact ⟨hs.1, ih hs.2⟩
  | malloc _ n k ih => exact ⟨ih 0 hs.1, fun a c hf => ih a (hs.2 a c hf)⟩
  | free _ p k ih =>
    rcases hs with ⟨h0, hk⟩ | ⟨n, h1, h2, h3, hk⟩
    · exact .inl ⟨h0, ih hk⟩
    · exact .inr ⟨n, h1, h2, h3, ih hk⟩
  | print _ m k ih => exact ⟨hs.1, ih hs.2⟩

/-- One access of a call, with other memory around. -/
theorem Safely.step {plat : Plat} {Q : α → HProp} {fl : Bool} {x : Body g α} {h hf : Heap} {w : World} (sys : Sys) (hsp : sys.plat = plat)
    (hs : x.Safely plat Q fl h) (hd : Heap.disj h hf) (he : w.heap = h.add hf) (hfl : fl = true → w.failed = true) :
    match x.step sys w with
    | .ok x' w' => (∃ h' fl', Heap.disj h' hf ∧ w'.heap = h'.add hf ∧ (fl' = true → w'.failed = true) ∧ x'.Safely plat Q fl' h') ∧ NoAlarm w w'
    | .oom w' => w'.failed = true
    | .ub => False := by
  cases x with
  | ret a => exact ⟨⟨h, fl, hd, he, hfl, hs⟩, .rfl'⟩
  | ub => exact hs
  | null hg =>
    have : w.failed = true := hfl hs
    have e : (Body.null hg : Body g α).step sys w = .oom w := by
      show M.nullDeref w = _
      simp only [M.nullDeref, this, if_true]
    rw [e]
    exact this
  | load p k =>
    obtain ⟨v, hv, hk⟩ := hs
    have hw : w.heap.b p = some v := by rw [he]; show (h.b p).or _ = _; rw [hv]; rfl
    have : (Body.load p k : Body g α).step sys w = .ok (k v) w := by
      show (M.load p >>= fun v => Pure.pure (k v)) w = _
      rw [M.bind_apply, M.load, hw]; rfl
    rw [this]
    exact ⟨⟨h, fl, hd, he, hfl, hk⟩, .rfl'⟩
  | store p v k =>
    obtain ⟨hv, hk⟩ := hs
    obtain ⟨u, hu⟩ := Option.isSome_iff_exists.1 hv
    have hw : w.heap.b p = some u := by rw [he]; show (h.b p).or _ = _; rw [hu]; rfl
    have : (Body.store p v k : Body g α).step sys w = .ok k { w with heap := w.heap.setB p v } := by
      show (M.store p v >>= fun _ => Pure.pure k) w = _
      rw [M.bind_apply, M.store, hw]; rfl
    rw [this]
    exact ⟨⟨h.setB p v, fl, Heap.setB_disj hv hd, by rw [Heap.setB_add, he], hfl, hk⟩, .rfl'⟩
  | malloc hg n k =>
    rw [show (Body.malloc hg n k).step sys w = (cMalloc sys n >>= fun p => Pure.pure (k p)) w from rfl, M.bind_apply]
    unfold cMalloc
    cases hm : sys.malloc w.tick w.heap n with
    | none => exact ⟨⟨h, true, hd, he, fun _ => rfl, hs.1⟩, .rfl'⟩
    | some ac =>
      obtain ⟨a, c⟩ := ac
      obtain ⟨h1, h2, h3, h4, h5⟩ := sys.valid _ _ _ _ _ hm
      have h4' : h.t a = none ∧ hf.t a = none := by
        rw [he] at h4
        have h4 : (h.t a).or (hf.t a) = none := h4
        cases e : h.t a with
        | none => rw [e] at h4; exact ⟨rfl, h4⟩
        | some v => rw [e] at h4; cases h4
      have h5' : ∀ x, a ≤ x → x < a + n → h.b x = none ∧ hf.b x = none := by
        intro x hx1 hx2
        have h5 := h5 x hx1 hx2
        rw [he] at h5
        have h5 : (h.b x).or (hf.b x) = none := h5
        cases e : h.b x with
        | none => rw [e] at h5; exact ⟨rfl, h5⟩
        | some v => rw [e] at h5; cases h5
      refine ⟨⟨h.add (.mblock a n c), fl, ?_, ?_, hfl, hs.2 a c ⟨h1, hsp ▸ h2, h3, h4'.1, fun x hx1 hx2 => (h5' x hx1 hx2).1⟩⟩, .rfl'⟩
      · refine Heap.disj_add_left.2 ⟨hd, fun x => ?_, fun x => ?_⟩
        · show (if a ≤ x ∧ x < a + n then _ else none) = none ∨ _
          by_cases e : a ≤ x ∧ x < a + n
          · exact .inr (h5' x e.1 e.2).2
          · rw [if_neg e]; exact .inl rfl
        · show (if x = a then some n else none) = none ∨ _
          by_cases e : x = a
          · subst e; exact .inr h4'.2
          · rw [if_neg e]; exact .inl rfl
      · have e1 := add_mblock w.heap a n c h5 h4
        refine e1.trans ?_
        rw [he, Heap.add_assoc, Heap.add_assoc]
        congr 1
        refine Heap.add_comm ⟨fun x => ?_, fun x => ?_⟩
        · show _ ∨ (if a ≤ x ∧ x < a + n then _ else none) = none
          by_cases e : a ≤ x ∧ x < a + n
          · exact .inl (h5' x e.1 e.2).2
          · rw [if_neg e]; exact .inr rfl
        · show _ ∨ (if x = a then some n else none) = none
          by_cases e : x = a
          · subst e; exact .inl h4'.2
          · rw [if_neg e]; exact .inr rfl
  | free hg p k =>
    rw [show (Body.free hg p k).step sys w = (cFree p >>= fun _ => Pure.pure k) w from rfl, M.bind_apply]
    unfold cFree
    rcases hs with ⟨rfl, hk⟩ | ⟨n, hp, ht, hb, hk⟩
    · rw [if_pos rfl]
      exact ⟨⟨h, fl, hd, he, hfl, hk⟩, .rfl'⟩
    · rw [if_neg hp]
      have ht' : w.heap.t p = some n := by rw [he]; show (h.t p).or _ = _; rw [ht]; rfl
      have hb' : w.heap.hasBytes p n = true := Heap.hasBytes_iff.2 fun x h1 h2 => by
        have := Heap.hasBytes_iff.1 hb x h1 h2
        rw [he]; simp [this]
      simp only [ht', hb', if_true]
      refine ⟨⟨h.cut p n, fl, Heap.cut_disj hd, ?_, hfl, hk⟩, .rfl'⟩
      rw [Heap.cut_add hd ht hb, he]
      rfl
  | print _ m k =>
    obtain ⟨hm, hk⟩ := hs
    refine ⟨⟨h, fl, hd, he, hfl, hk⟩, fun p n x y hmem => ?_⟩
    rcases List.mem_append.1 hmem with h1 | h1
    · exact h1
    · exact absurd (List.mem_singleton.1 h1).symm (hm p n x y)

/-- the next access is to memory of the call -/
theorem Safely.touch {plat : Plat} {Q : α → HProp} {fl : Bool} {x : Body g α} {h hf : Heap} (hs : x.Safely plat Q fl h) {a : Nat}
    (ha : x.touches (h.add hf) a) : (h.b a).isSome = true := by
  cases x with
  | ret _ => exact ha.elim
  | ub => exact ha.elim
  | null _ => exact ha.elim
  | malloc _ _ _ => exact ha.elim
  | print _ _ _ => exact ha.elim
  | load p k =>
    obtain ⟨v, hv, _⟩ := hs
    have : a = p := ha
    rw [this, hv]; rfl
  | store p v k =>
    have : a = p := ha
    rw [this]; exact hs.1
  | free _ p k =>
    obtain ⟨h0, m, hm, h1, h2⟩ := ha
    rcases hs with ⟨rfl, _⟩ | ⟨n, hp, ht, hb, _⟩
    · exact absurd rfl h0
    · have : (h.t p).or (hf.t p) = some m := hm
      rw [ht] at this
      cases this
      exact Heap.hasBytes_iff.1 hb a h1 h2

end Body

section
variable {X : BAlloc} {α : Type}

/-- What is left of thread `j` once the call it is in has taken its arguments. Proof helper, not code. -/
def Gang.rest (T : Gang X α) (j : Nat) : Prog α :=
  match T.holds j with
  | some (.giving _ k) => k
  | _ => T.threads j

/-- The memory of the allocator, `L` being the blocks that are out. Proof helper, not code. -/
def Gang.Own (plat : Plat) (I : X.IType) (b : Nat) (L : List (Nat × Nat)) (fl : Bool) (T : Gang X α) : HProp :=
  match T.inside with
  | none => I b T.st L
  | some (i, .taking x k) => fun h => ∃ n, T.threads i = .alloc n k ∧ x.Safely plat (fun r h' => (r.1 = 0 ∧ I b r.2 L h') ∨
      (Good r.1 n ∧ (I b r.2 ((r.1, n) :: L) ∗ bytes r.1 n) h')) fl h
  | some (i, .giving x k) => fun h => (∃ p n, T.threads i = .dealloc p n k) ∧ x.Safely plat (fun s => I b s L) fl h

/-- Thread `i` has the blocks `R i`, and is safe with them; the rest belongs to the allocator, or to the call under way. Proof helper, not code. -/
def GInvR (plat : Plat) (f : Nat → Prop) (I : X.IType) (b : Nat) (Q : Nat → α → Prop) (l : List Nat) (failed : Bool)
    (R : Nat → List (Nat × List UInt8)) (T : Gang X α) : HProp := fun h =>
  ∃ (fl : Bool) (ho hr : Heap), (∀ j, Safe f (Q j) (T.rest j) (R j)) ∧ (∀ j, j ∉ l → R j = []) ∧
    (∀ j c, T.inside = some (j, c) → j ∈ l) ∧ (fl = true → failed = true) ∧ Heap.disj ho hr ∧ h = ho.add hr ∧
    T.Own plat I b ((l.flatMap R).map blk) fl ho ∧ blocksV (l.flatMap R) hr

/-- The same for some distribution of the blocks. Proof helper, not code. -/
def GInv (plat : Plat) (f : Nat → Prop) (I : X.IType) (b : Nat) (Q : Nat → α → Prop) (l : List Nat) (failed : Bool) (T : Gang X α) : HProp := fun h =>
  ∃ R : Nat → List (Nat × List UInt8), GInvR plat f I b Q l failed R T h

/-- The thread has the byte. Proof helper, not code. -/
def Has (R : Nat → List (Nat × List UInt8)) (j x : Nat) : Prop := inLive ((R j).map blk) x

/-- How a step of thread `i` may change who has which byte: it gains some only when it gives the mutex back, and loses some only when it takes
it. Proof helper, not code. -/
def Gang.Moves (T T' : Gang X α) (i : Nat) (R R' : Nat → List (Nat × List UInt8)) : Prop :=
  (∀ j, j ≠ i → R' j = R j) ∧
  (∀ x, Has R' i x → Has R i x ∨ (T.holds i).isSome = true ∧ T'.inside = none) ∧
  (∀ x, Has R i x → Has R' i x ∨ T.inside = none ∧ (T'.holds i).isSome = true)

theorem Gang.Moves.refl (T T' : Gang X α) (i : Nat) (R : Nat → List (Nat × List UInt8)) : T.Moves T' i R R :=
  ⟨fun _ _ => rfl, fun _ h => .inl h, fun _ h => .inl h⟩

theorem Gang.Moves.same (T T' : Gang X α) (i : Nat) (R : Nat → List (Nat × List UInt8)) : T.Moves T' i R (fun j => if j = i then R i else R j) := by
  have : (fun j => if j = i then R i else R j) = R := by
    funext j
    by_cases e : j = i
    · rw [if_pos e, e]
    · rw [if_neg e]
  rw [this]; exact .refl ..

theorem Gang.Moves.set (T T' : Gang X α) (i : Nat) (R : Nat → List (Nat × List UInt8)) (Y : List (Nat × List UInt8))
    (h1 : ∀ x, inLive (Y.map blk) x → Has R i x ∨ (T.holds i).isSome = true ∧ T'.inside = none)
    (h2 : ∀ x, Has R i x → inLive (Y.map blk) x ∨ T.inside = none ∧ (T'.holds i).isSome = true) :
    T.Moves T' i R (fun j => if j = i then Y else R j) :=
  have e : Has (fun j => if j = i then Y else R j) i = inLive (Y.map blk) := by unfold Has; simp only [if_true]
  ⟨fun j hj => if_neg hj, fun x hx => h1 x (e ▸ hx), fun x hx => by rw [e]; exact h2 x hx⟩

theorem Gang.holds_self {T : Gang X α} {i : Nat} {c : Visit X α} (h : T.holds i = some c) : T.inside = some (i, c) := by
  unfold Gang.holds at h
  cases e : T.inside with
  | none => rw [e] at h; cases h
  | some jc =>
    rw [e] at h
    simp only at h
    split at h
    · rename_i h'
      cases h
      rw [← h']
    · cases h

theorem Gang.rest_of_not {T : Gang X α} {i : Nat} (h : T.holds i = none) : T.rest i = T.threads i := by
  unfold Gang.rest
  rw [h]

theorem Gang.rest_other {T : Gang X α} {i : Nat} {c : Visit X α} (h : T.inside = some (i, c)) {j : Nat} (hj : j ≠ i) : T.rest j = T.threads j := by
  refine Gang.rest_of_not ?_
  unfold Gang.holds
  rw [h]
  exact if_neg (Ne.symm hj)

theorem Gang.rest_put {T : Gang X α} {i : Nat} (h : T.holds i = none) (p : Prog α) (j : Nat) : (T.put i p).rest j = if j = i then p else T.rest j := by
  have e : ∀ j, (T.put i p).holds j = T.holds j := fun _ => rfl
  unfold Gang.rest
  rw [e]
  by_cases hj : j = i
  · subst hj
    rw [h, if_pos rfl]
    exact if_pos rfl
  · rw [if_neg hj]
    cases T.holds j with
    | none => exact if_neg hj
    | some c =>
      cases c with
      | taking _ _ => exact if_neg hj
      | giving _ _ => rfl

theorem Gang.own_put {plat : Plat} {I : X.IType} {b : Nat} {L : List (Nat × Nat)} {fl : Bool} {T : Gang X α} {i : Nat} (h : T.holds i = none) (p : Prog α)
    {ho : Heap} (hO : T.Own plat I b L fl ho) : (T.put i p).Own plat I b L fl ho := by
  unfold Gang.Own at hO ⊢
  have e : (T.put i p).inside = T.inside := rfl
  rw [e]
  cases hi : T.inside with
  | none => rw [hi] at hO; exact hO
  | some jc =>
    obtain ⟨j, c⟩ := jc
    have hj : j ≠ i := by
      intro e
      unfold Gang.holds at h
      rw [hi] at h
      simp only [e, if_true] at h
      cases h
    rw [hi] at hO
    cases c with
    | taking x k =>
      obtain ⟨n, h1, h2⟩ := hO
      exact ⟨n, (if_neg hj).trans h1, h2⟩
    | giving x k =>
      obtain ⟨⟨p, n, h1⟩, h2⟩ := hO
      exact ⟨⟨p, n, (if_neg hj).trans h1⟩, h2⟩

theorem Gang.own_perm {plat : Plat} {I : X.IType} (hI : ∀ b s L L' h, L.Perm L' → I b s L h → I b s L' h) {b : Nat} {L L' : List (Nat × Nat)}
    (hL : L.Perm L') {fl : Bool} {T : Gang X α} {ho : Heap} (hO : T.Own plat I b L fl ho) : T.Own plat I b L' fl ho := by
  unfold Gang.Own at hO ⊢
  cases hi : T.inside with
  | none => rw [hi] at hO; exact hI _ _ _ _ _ hL hO
  | some jc =>
    obtain ⟨j, c⟩ := jc
    rw [hi] at hO
    cases c with
    | taking x k =>
      obtain ⟨n, h1, h2⟩ := hO
      refine ⟨n, h1, h2.mono ?_⟩
      rintro r h (⟨h3, h4⟩ | ⟨h3, h4, h5, hd, he, h6, h7⟩)
      · exact .inl ⟨h3, hI _ _ _ _ _ hL h4⟩
      · exact .inr ⟨h3, h4, h5, hd, he, hI _ _ _ _ _ (hL.cons _) h6, h7⟩
    | giving x k => exact ⟨hO.1, Body.Safely.mono (fun s h hh => hI _ _ _ _ _ hL hh) hO.2⟩

variable {plat : Plat} {f : Nat → Prop} {I : X.IType} {b : Nat} {Q : Nat → α → Prop} {l : List Nat}

theorem GInv.intro (hI : ∀ b s L L' h, L.Perm L' → I b s L h → I b s L' h) {T T' : Gang X α} {R : Nat → List (Nat × List UInt8)}
    (hS : ∀ j, Safe f (Q j) (T.rest j) (R j)) (hN : ∀ j, j ∉ l → R j = []) (i : Nat) (hi : i ∈ l) (hT : ∀ j, j ≠ i → T'.rest j = T.rest j)
    (Y : List (Nat × List UInt8)) (hY : Safe f (Q i) (T'.rest i) Y) (rest : List (Nat × List UInt8))
    (hr : (l.flatMap fun j => if j = i then Y else R j).Perm (Y ++ rest)) (hin : ∀ j c, T'.inside = some (j, c) → j ∈ l) {fl failed : Bool}
    (hfl : fl = true → failed = true) {ho hb : Heap} (hd : Heap.disj ho hb) (hO : T'.Own plat I b ((Y ++ rest).map blk) fl ho)
    (hB : blocksV (Y ++ rest) hb) : GInvR plat f I b Q l failed (fun j => if j = i then Y else R j) T' (ho.add hb) := by
  refine ⟨fl, ho, hb, fun j => ?_, fun j hj => ?_, hin, hfl, hd, rfl, Gang.own_perm hI (hr.map blk).symm hO, ?_⟩
  · by_cases e : j = i
    · subst e; simp only [if_true]; exact hY
    · simp only [if_neg e, hT j e]; exact hS j
  · have : j ≠ i := fun e => hj (e ▸ hi)
    simp only [if_neg this]; exact hN j hj
  · rw [blocksV_perm hr]; exact hB

theorem SoundAll.perm (h : SoundAll plat X f I) {b : Nat} {s : X.S} {L L' : List (Nat × Nat)} {k : Heap} (hp : L.Perm L') (hi : I b s L k) : I b s L' k := by
  obtain ⟨hA, rfl⟩ := h (noSys plat) rfl
  exact hA.perm hp hi

theorem SoundAll.alloc (h : SoundAll plat X f I) {b : Nat} {s : X.S} {L : List (Nat × Nat)} {n : Nat} {k : Heap} (hf : f n) (hn : n < W64)
    (hi : I b s L k) : (X.alloc s n).Safely plat (fun r h' => (r.1 = 0 ∧ I b r.2 L h') ∨ (Good r.1 n ∧ (I b r.2 ((r.1, n) :: L) ∗ bytes r.1 n) h'))
      false k := by
  refine Body.Runs.safely _ 0 false [] k (fun _ _ _ _ h => by cases h) (Body.Runs.of_triple (P := I b s L) hi fun sys hs => ?_)
  obtain ⟨hA, rfl⟩ := h sys hs
  exact hA.alloc_spec b s L n hf hn

theorem SoundAll.dealloc (h : SoundAll plat X f I) {b : Nat} {s : X.S} {p : Nat} {bs : List UInt8} {R : List (Nat × List UInt8)} {k m : Heap}
    (hk : blocksV R k) (hd : Heap.disj m k) (hi : (I b s ((p, bs.length) :: R.map blk) ∗ bytesV p bs) m) :
    (X.dealloc s p bs.length).Safely plat (fun s' => I b s' (R.map blk)) false m := by
  refine Body.Runs.safely _ 0 false [] m (fun _ _ _ _ h => by cases h)
    (Body.Runs.of_triple (P := apart k (I b s ((p, bs.length) :: R.map blk) ∗ bytesV p bs)) ⟨hd, hi⟩ fun sys hs => ?_)
  obtain ⟨hA, rfl⟩ := h sys hs
  exact hA.dealloc_local b s p bs R k hk

theorem blocks_load {R : List (Nat × List UInt8)} {q p : Nat} {bs : List UInt8} {v : UInt8} (hm : (q, bs) ∈ R) (hq : q ≤ p)
    (hv : bs[p - q]? = some v) {h : Heap} (hB : blocksV R h) : h.b p = some v := by
  obtain ⟨hlt, hv'⟩ := List.getElem?_eq_some_iff.1 hv
  have := blocksV_mem hB hm (p - q) hlt
  rw [Nat.add_sub_cancel' hq, hv'] at this
  exact this

/-- One step of one thread keeps every thread safe, also while another thread is inside a call, and moves blocks as it may. -/
theorem gang_move (h : SoundAll plat X f I) (sys : Sys) (hsp : sys.plat = plat) (hl : l.Nodup) (T : Gang X α) (i : Nat) (hi : i ∈ l) (w : World)
    (hp hf : Heap) (hd : Heap.disj hp hf) (he : w.heap = hp.add hf) (R : Nat → List (Nat × List UInt8))
    (hG : GInvR plat f I b Q l w.failed R T hp) :
    match T.step sys i w with
    | .ok T' w' => (∃ h', Heap.disj h' hf ∧ w'.heap = h'.add hf ∧ ∃ R', GInvR plat f I b Q l w'.failed R' T' h' ∧ T.Moves T' i R R') ∧ NoAlarm w w'
    | .oom w' => w'.failed = true
    | .ub => False := by
  have hI : ∀ b s L L' h, L.Perm L' → I b s L h → I b s L' h := fun _ _ _ _ _ a b => h.perm a b
  obtain ⟨fl, ho, hr, hS, hN, hin, hfl, hdo, rfl, hO, hB⟩ := id hG
  obtain ⟨rest, hr1, hr2, _⟩ := flatMap_split l hl i hi R
  obtain ⟨hd1, hd2⟩ := Heap.disj_add_left.1 hd
  have hO' := Gang.own_perm hI (hr1.map blk) hO
  rw [blocksV_perm hr1] at hB
  have hSi := hS i
  unfold Gang.step
  cases hh : T.holds i with
  | some c =>
    have hins := Gang.holds_self hh
    have hro : ∀ (T' : Gang X α), (∀ j, j ≠ i → T'.rest j = T.threads j) → ∀ j, j ≠ i → T'.rest j = T.rest j := fun T' hT j hj => by
      rw [hT j hj, Gang.rest_other hins hj]
    have hrest : ∀ (s : X.S) (p : Prog α) j, ({ T.put i p with st := s, inside := none } : Gang X α).rest j = if j = i then p else T.threads j :=
      fun _ _ _ => rfl
    cases c with
    | taking x k =>
      have hOx := hO'
      unfold Gang.Own at hOx
      rw [hins] at hOx
      obtain ⟨n, hth, hsf⟩ := hOx
      have hri : T.rest i = .alloc n k := by
        unfold Gang.rest
        rw [hh]; exact hth
      by_cases hx : ∃ r, x = .ret r
      · obtain ⟨r, rfl⟩ := hx
        rw [hri] at hSi
        obtain ⟨hfn, hn, hk0, hk⟩ := hSi
        have hO2 : (r.1 = 0 ∧ I b r.2 ((R i ++ rest).map blk) ho) ∨
          (Good r.1 n ∧ (I b r.2 ((r.1, n) :: (R i ++ rest).map blk) ∗ bytes r.1 n) ho) := hsf
        show (∃ h', _) ∧ _
        refine ⟨?_, .rfl'⟩
        rcases hO2 with ⟨e, hI1⟩ | ⟨hg, h3, h4, hd', rfl, hI1, hBy⟩
        · refine ⟨_, hd, he, _, GInv.intro hI hS hN i hi (hro _ fun j hj => ?_) (R i) ?_ rest (hr2 _) (fun _ _ h => by cases h) hfl hdo hI1 hB, .same ..⟩
          · rw [hrest, if_neg hj]
          · rw [hrest, if_pos rfl, e]; exact hk0
        · obtain ⟨bs, hlen, hV⟩ := bytes_exists hBy
          have hd3 := Heap.disj_add_left.1 hdo
          have hall : blocksV ((r.1, bs) :: (R i ++ rest)) (h4.add hr) := ⟨h4, hr, hd3.2, rfl, hV, hB⟩
          refine ⟨h3.add (h4.add hr), by rw [← Heap.add_assoc]; exact hd, by rw [← Heap.add_assoc]; exact he,
            _, GInv.intro hI hS hN i hi (hro _ fun j hj => ?_) ((r.1, bs) :: R i) ?_ rest (hr2 _) (fun _ _ h => by cases h) hfl
              (Heap.disj_add_right.2 ⟨hd', hd3.1⟩) ?_ hall,
            .set _ _ _ _ _ (fun x _ => .inr ⟨by rw [hh]; rfl, rfl⟩) fun x hx => .inl ?_⟩
          · rw [hrest, if_neg hj]
          · rw [hrest, if_pos rfl]
            refine hk r.1 bs hg hlen ?_
            have hall : blocksV (((r.1, bs) :: R i) ++ rest) (h4.add hr) := hall
            rw [blocksV_append] at hall
            obtain ⟨a, _, _, _, ha, _⟩ := hall
            exact ⟨a, ha⟩
          · rw [← hlen] at hI1
            exact hI1
          · obtain ⟨c, hc, hx⟩ := hx
            exact ⟨c, List.mem_cons_of_mem _ hc, hx⟩
      · have hov : (Visit.taking x k : Visit X α).over = none := by
          cases x <;> first | rfl | exact absurd ⟨_, rfl⟩ hx
        simp only [hov]
        have hst := Body.Safely.step sys hsp hsf (hf := hr.add hf) (Heap.disj_add_right.2 ⟨hdo, hd1⟩) (by rw [he, Heap.add_assoc]) hfl
        show match (Visit.step sys (.taking x k) >>= fun c' => (pure { T with inside := some (i, c') } : M (Gang X α))) w with
          | .ok T' w' => _ | .oom w' => _ | .ub => _
        have e0 : (Visit.step sys (.taking x k) >>= fun c' => (pure { T with inside := some (i, c') } : M (Gang X α))) =
          x.step sys >>= fun x' => pure { T with inside := some (i, .taking x' k) } := by
          show (x.step sys >>= fun x' => (pure (.taking x' k) : M (Visit X α))) >>= _ = _
          rw [bind_assoc]; rfl
        rw [e0, M.bind_apply]
        cases hxs : x.step sys w with
        | ok x' w' =>
          rw [hxs] at hst
          obtain ⟨⟨h', fl', hd', he', hfl', hs'⟩, hna⟩ := hst
          obtain ⟨hdr, hdf⟩ := Heap.disj_add_right.1 hd'
          refine ⟨⟨h'.add hr, Heap.disj_add_left.2 ⟨hdf, hd2⟩, by rw [he', Heap.add_assoc],
            _, GInv.intro hI hS hN i hi (hro { T with inside := some (i, .taking x' k) } fun j hj => Gang.rest_other rfl hj) (R i) ?_ rest (hr2 _) ?_ hfl' hdr ?_ hB,
            .same ..⟩, hna⟩
          · have : ({ T with inside := some (i, .taking x' k) } : Gang X α).rest i = T.threads i := by
              simp only [Gang.rest, Gang.holds, if_true]
            rw [this, hth, ← hri]; exact hS i
          · rintro j c hc; cases hc; exact hi
          · exact ⟨n, hth, hs'⟩
        | oom w' => rw [hxs] at hst; exact hst
        | ub => rw [hxs] at hst; exact hst
    | giving x k =>
      have hOx := hO'
      unfold Gang.Own at hOx
      rw [hins] at hOx
      obtain ⟨hth, hOx⟩ := hOx
      have hri : T.rest i = k := by
        unfold Gang.rest
        rw [hh]
      by_cases hx : ∃ r, x = .ret r
      · obtain ⟨s, rfl⟩ := hx
        rw [hri] at hSi
        show (∃ h', _) ∧ _
        refine ⟨⟨_, hd, he, _, GInv.intro hI hS hN i hi (hro _ fun j hj => ?_) (R i) ?_ rest (hr2 _) (fun _ _ h => by cases h) hfl hdo ?_ hB, .same ..⟩, .rfl'⟩
        · rw [hrest, if_neg hj]
        · rw [hrest, if_pos rfl]; exact hSi
        · exact hOx
      · have hov : (Visit.giving x k : Visit X α).over = none := by
          cases x <;> first | rfl | exact absurd ⟨_, rfl⟩ hx
        simp only [hov]
        have hst := Body.Safely.step sys hsp hOx (hf := hr.add hf) (Heap.disj_add_right.2 ⟨hdo, hd1⟩) (by rw [he, Heap.add_assoc]) hfl
        show match (Visit.step sys (.giving x k) >>= fun c' => (pure { T with inside := some (i, c') } : M (Gang X α))) w with
          | .ok T' w' => _ | .oom w' => _ | .ub => _
        have e0 : (Visit.step sys (.giving x k) >>= fun c' => (pure { T with inside := some (i, c') } : M (Gang X α))) =
          x.step sys >>= fun x' => pure { T with inside := some (i, .giving x' k) } := by
          show (x.step sys >>= fun x' => (pure (.giving x' k) : M (Visit X α))) >>= _ = _
          rw [bind_assoc]; rfl
        rw [e0, M.bind_apply]
        cases hxs : x.step sys w with
        | ok x' w' =>
          rw [hxs] at hst
          obtain ⟨⟨h', fl', hd', he', hfl', hs'⟩, hna⟩ := hst
          obtain ⟨hdr, hdf⟩ := Heap.disj_add_right.1 hd'
          refine ⟨⟨h'.add hr, Heap.disj_add_left.2 ⟨hdf, hd2⟩, by rw [he', Heap.add_assoc],
            _, GInv.intro hI hS hN i hi (hro { T with inside := some (i, .giving x' k) } fun j hj => Gang.rest_other rfl hj) (R i) ?_ rest (hr2 _) ?_ hfl' hdr ?_ hB,
            .same ..⟩, hna⟩
          · have : ({ T with inside := some (i, .giving x' k) } : Gang X α).rest i = k := by
              simp only [Gang.rest, Gang.holds, if_true]
            rw [this, ← hri]; exact hS i
          · rintro j c hc; cases hc; exact hi
          · exact ⟨hth, hs'⟩
        | oom w' => rw [hxs] at hst; exact hst
        | ub => rw [hxs] at hst; exact hst
  | none =>
    rw [Gang.rest_of_not hh] at hSi
    have hput : ∀ p, ∀ j, j ≠ i → (T.put i p).rest j = T.rest j := fun p j hj => by rw [Gang.rest_put hh, if_neg hj]
    have hputi : ∀ p, (T.put i p).rest i = p := fun p => by rw [Gang.rest_put hh, if_pos rfl]
    cases hT : T.threads i with
    | ret a => exact ⟨⟨_, hd, he, _, hG, .refl ..⟩, .rfl'⟩
    | stop => exact rfl
    | ub => rw [hT] at hSi; exact hSi
    | load p k =>
      rw [hT] at hSi
      obtain ⟨q, bs, v, hm, hq, hv, hk⟩ := hSi
      have hv1 := blocks_load (List.mem_append_left rest hm) hq hv hB
      have hv2 : ho.b p = none := by
        rcases hdo.1 p with e | e
        · exact e
        · rw [e] at hv1; cases hv1
      have hw : w.heap.b p = some v := by
        rw [he]
        show ((ho.b p).or (hr.b p)).or (hf.b p) = _
        rw [hv2, hv1]; rfl
      have e0 : (M.load p >>= fun v => (pure (T.put i (k v)) : M (Gang X α))) w = .ok (T.put i (k v)) w := by
        rw [M.bind_apply, M.load, hw]; rfl
      simp only [e0]
      exact ⟨⟨_, hd, he, _, GInv.intro hI hS hN i hi (hput _) (R i) (by rw [hputi]; exact hk) rest (hr2 _) hin hfl hdo (Gang.own_put hh _ hO') hB, .same ..⟩, .rfl'⟩
    | store p v k =>
      rw [hT] at hSi
      obtain ⟨q, bs, R', hR, hq, hlt, hk⟩ := hSi
      have hst := blocks_store v ((hR.append_right rest).trans (.of_eq rfl)) hlt w hr (ho.add hf)
        (Heap.disj_add_right.2 ⟨Heap.disj_comm hdo, hd2⟩) (by rw [he, Heap.add_comm hdo, Heap.add_assoc]) hB
      rw [Nat.add_sub_cancel' hq] at hst
      have hwf : ∀ u w', M.store p v w = .ok u w' → w'.failed = w.failed := fun u w' h => by
        unfold M.store at h
        split at h <;> cases h
        rfl
      show match (M.store p v >>= fun _ => (pure (T.put i k) : M (Gang X α))) w with
          | .ok T' w' => _ | .oom w' => _ | .ub => _
      rw [M.bind_apply]
      cases hsw : M.store p v w with
      | ok u w' =>
        rw [hsw] at hst
        obtain ⟨⟨h', hd', he', hB'⟩, hna⟩ := hst
        obtain ⟨hd3, hd4⟩ := Heap.disj_add_right.1 hd'
        refine ⟨⟨ho.add h', Heap.disj_add_left.2 ⟨hd1, hd4⟩, ?_, _, GInv.intro hI hS hN i hi (hput _) ((q, bs.set (p - q) v) :: R')
          (by rw [hputi]; exact hk) rest (hr2 _) hin (by rw [hwf _ _ hsw]; exact hfl) (Heap.disj_comm hd3)
          (Gang.own_put hh _ (Gang.own_perm hI (((hR.append_right rest).map blk).trans (.of_eq ?_)) hO')) hB',
          .set _ _ _ _ _ (fun x hx => .inl ?_) fun x hx => .inl ?_⟩, hna⟩
        · rw [he', ← Heap.add_assoc, Heap.add_comm hd3]
        · simp [blk]
        · have hx : inLive (((q, bs) :: R').map blk) x := by simpa [blk] using hx
          obtain ⟨c, hc, hx⟩ := hx
          exact ⟨c, (hR.map blk).mem_iff.2 hc, hx⟩
        · obtain ⟨c, hc, hx⟩ := hx
          have : inLive (((q, bs) :: R').map blk) x := ⟨c, (hR.map blk).mem_iff.1 hc, hx⟩
          simpa [blk] using this
      | oom w' => rw [hsw] at hst; exact hst
      | ub => rw [hsw] at hst; exact hst
    | alloc n k =>
      simp only
      by_cases hs : T.inside.isSome = true
      · rw [if_pos hs]; exact ⟨⟨_, hd, he, _, hG, .refl ..⟩, .rfl'⟩
      · rw [if_neg hs]
        have hs' : T.inside = none := by simpa using hs
        rw [hT] at hSi
        obtain ⟨hfn, hn, hk0, hk⟩ := id hSi
        have hO2 : I b T.st ((R i ++ rest).map blk) ho := by
          unfold Gang.Own at hO'; rw [hs'] at hO'; exact hO'
        have hroo : ∀ j, T.rest j = T.threads j := fun j => by
          refine Gang.rest_of_not ?_
          unfold Gang.holds; rw [hs']
        refine ⟨⟨_, hd, he, _, GInv.intro hI hS hN i hi (fun j hj => ?_) (R i) ?_ rest (hr2 _) ?_ (fl := false) (fun h => by cases h) hdo ?_ hB, .same ..⟩, .rfl'⟩
        · rw [hroo, Gang.rest_other rfl hj]
        · have : ({ T with inside := some (i, .taking (X.alloc T.st n) k) } : Gang X α).rest i = T.threads i := by
            simp only [Gang.rest, Gang.holds, if_true]
          rw [this, hT]; exact hSi
        · rintro j c hc; cases hc; exact hi
        · exact ⟨n, hT, h.alloc hfn hn hO2⟩
    | dealloc p n k =>
      simp only
      by_cases hs : T.inside.isSome = true
      · rw [if_pos hs]; exact ⟨⟨_, hd, he, _, hG, .refl ..⟩, .rfl'⟩
      · rw [if_neg hs]
        have hs' : T.inside = none := by simpa using hs
        rw [hT] at hSi
        obtain ⟨bs, R', hR, rfl, hk⟩ := hSi
        have hO2 : I b T.st ((R i ++ rest).map blk) ho := by
          unfold Gang.Own at hO'; rw [hs'] at hO'; exact hO'
        have hroo : ∀ j, T.rest j = T.threads j := fun j => by
          refine Gang.rest_of_not ?_
          unfold Gang.holds; rw [hs']
        rw [blocksV_perm (hR.append_right rest)] at hB
        obtain ⟨hb1, hb2, hdb, rfl, hV, hB'⟩ := hB
        obtain ⟨hdo1, hdo2⟩ := Heap.disj_add_right.1 hdo
        refine ⟨⟨(ho.add hb1).add hb2, by rw [Heap.add_assoc]; exact hd, by rw [Heap.add_assoc ho]; exact he,
          _, GInv.intro hI hS hN i hi (fun j hj => ?_) R' ?_ rest (hr2 _) ?_ (fl := false) (fun h => by cases h)
            (Heap.disj_add_left.2 ⟨hdo2, hdb⟩) ?_ hB', .set _ _ _ _ _ (fun x hx => .inl ?_) fun x _ => .inr ⟨hs', ?_⟩⟩, .rfl'⟩
        · rw [hroo, Gang.rest_other rfl hj]
        · have : ({ T with inside := some (i, .giving (X.dealloc T.st p bs.length) k) } : Gang X α).rest i = k := by
            simp only [Gang.rest, Gang.holds, if_true]
          rw [this]; exact hk
        · rintro j c hc; cases hc; exact hi
        · refine ⟨⟨_, _, hT⟩, ?_⟩
          exact h.dealloc hB' (Heap.disj_add_left.2 ⟨hdo2, hdb⟩) ⟨ho, hb1, hdo1, rfl, hI _ _ _ _ _ ((hR.append_right rest).map blk) hO2, hV⟩
        · obtain ⟨c, hc, hx⟩ := hx
          exact ⟨c, (hR.map blk).mem_iff.2 (List.mem_cons_of_mem _ hc), hx⟩
        · simp only [Gang.holds, if_true]; rfl

/-- One step of one thread keeps every thread safe, also while another thread is inside a call. -/
theorem gang_step (h : SoundAll plat X f I) (sys : Sys) (hsp : sys.plat = plat) (hl : l.Nodup) (T : Gang X α) (i : Nat) (hi : i ∈ l) (w : World)
    (hp hf : Heap) (hd : Heap.disj hp hf) (he : w.heap = hp.add hf) (hG : GInv plat f I b Q l w.failed T hp) :
    match T.step sys i w with
    | .ok T' w' => (∃ h', Heap.disj h' hf ∧ w'.heap = h'.add hf ∧ GInv plat f I b Q l w'.failed T' h') ∧ NoAlarm w w'
    | .oom w' => w'.failed = true
    | .ub => False := by
  obtain ⟨R, hG⟩ := hG
  have := gang_move h sys hsp hl T i hi w hp hf hd he R hG
  cases e : T.step sys i w with
  | ok T' w' =>
    rw [e] at this
    obtain ⟨⟨h', h1, h2, R', h3, _⟩, h4⟩ := this
    exact ⟨⟨h', h1, h2, R', h3⟩, h4⟩
  | oom w' => rw [e] at this; exact this
  | ub => rw [e] at this; exact this

theorem gang_run (h : SoundAll plat X f I) (sys : Sys) (hsp : sys.plat = plat) (hl : l.Nodup) (sched : List Nat) (hs : ∀ i ∈ sched, i ∈ l)
    (T : Gang X α) (w : World) (hp hf : Heap) (hd : Heap.disj hp hf) (he : w.heap = hp.add hf) (hG : GInv plat f I b Q l w.failed T hp) :
    match T.run sys sched w with
    | .ok T' w' => (∃ h', Heap.disj h' hf ∧ w'.heap = h'.add hf ∧ GInv plat f I b Q l w'.failed T' h') ∧ NoAlarm w w'
    | .oom w' => w'.failed = true
    | .ub => False := by
  induction sched generalizing T w hp with
  | nil => exact ⟨⟨hp, hd, he, hG⟩, .rfl'⟩
  | cons i is ih =>
    have h1 := gang_step h sys hsp hl T i (hs i List.mem_cons_self) w hp hf hd he hG
    rw [show T.run sys (i :: is) = T.step sys i >>= fun T' => T'.run sys is from rfl, M.bind_apply]
    cases e : T.step sys i w with
    | ok T' w' =>
      rw [e] at h1
      obtain ⟨⟨h', hd', he', hG'⟩, hna⟩ := h1
      have h2 := ih (fun j hj => hs j (List.mem_cons_of_mem _ hj)) T' w' h' hd' he' hG'
      show match T'.run sys is w' with | .ok T' w' => _ | .oom w' => _ | .ub => _
      cases e2 : T'.run sys is w' with
      | ok T'' w'' => rw [e2] at h2; exact ⟨h2.1, hna.trans h2.2⟩
      | oom w'' => rw [e2] at h2; exact h2
      | ub => rw [e2] at h2; exact h2
    | oom w' => rw [e] at h1; exact h1
    | ub => rw [e] at h1; exact h1

/-- Threads that are safe by themselves are safe together, also while one of them is inside a call. -/
theorem gang_spec (h : SoundAll plat X f I) (sys : Sys) (hsp : sys.plat = plat) (progs : Nat → Prog α) (hp : ∀ i, Safe f (Q i) (progs i) [])
    (sched : List Nat) (h1 : b ≠ 0) (h2 : b % 16 = 0) (h3 : b + X.objSize < W64) (w : World) (h0 hf : Heap) (hd : Heap.disj h0 hf)
    (he : w.heap = h0.add hf) (hb : bytes b X.objSize h0) :
    match gangPlay X sys b progs sched w with
    | .ok T' w' => (∃ h', Heap.disj h' hf ∧ w'.heap = h'.add hf ∧ GInv plat f I b Q sched.dedup w'.failed T' h') ∧ NoAlarm w w'
    | .oom w' => w'.failed = true
    | .ub => False := by
  obtain ⟨hA, rfl⟩ := id (h sys hsp)
  have hT : Triple (bytes b X.objSize) ((X.init b).seq sys) (fun s => hA.Inv b s []) := hA.init_spec b h1 h2 h3
  have hi := hT w h0 hf hd he hb
  unfold gangPlay
  rw [M.bind_apply]
  cases e : (X.init b).seq sys w with
  | ok s w' =>
    rw [e] at hi
    obtain ⟨⟨h', hd', he', hI⟩, hna⟩ := hi
    have hG : GInv plat f hA.Inv b Q sched.dedup w'.failed ⟨s, progs, none⟩ h' := by
      have : (sched.dedup.flatMap fun _ => ([] : List (Nat × List UInt8))) = [] := by simp
      refine ⟨fun _ => [], false, h', Heap.empty, hp, fun _ _ => rfl, (fun _ _ h => by cases h), (fun h => by cases h), Heap.disj_empty _,
        (Heap.add_empty _).symm, ?_, ?_⟩
      · rw [this]; exact hI
      · rw [this]; rfl
    have h2 := gang_run h sys hsp sched.nodup_dedup sched (fun i hi => List.mem_dedup.2 hi) ⟨s, progs, none⟩ w' h' hf hd' he' hG
    show match Gang.run sys ⟨s, progs, none⟩ sched w' with | .ok T' w' => _ | .oom w' => _ | .ub => _
    cases e2 : Gang.run sys ⟨s, progs, none⟩ sched w' with
    | ok T'' w'' => rw [e2] at h2; exact ⟨h2.1, hna.trans h2.2⟩
    | oom w'' => rw [e2] at h2; exact h2
    | ub => rw [e2] at h2; exact h2
  | oom w' => rw [e] at hi; exact hi
  | ub => rw [e] at hi; exact hi

/-- never two threads at one address -/
theorem GInv.race_free {T : Gang X α} {failed : Bool} {h hf : Heap} (hl : l.Nodup) (hG : GInv plat f I b Q l failed T h)
    {i j : Nat} (hij : i ≠ j) {x : Nat} (hi : T.touches (h.add hf) i x) (hj : T.touches (h.add hf) j x) : False := by
  obtain ⟨R, fl, ho, hr, hS, hN, hin, hfl, hdo, rfl, hO, hB⟩ := hG
  have mine : ∀ i, T.holds i = none → T.touches ((ho.add hr).add hf) i x → i ∈ l ∧ inLive ((R i).map blk) x := fun i hh hx => by
    have hx' : (T.threads i).touches x := by
      unfold Gang.touches at hx; rw [hh] at hx; exact hx
    have := hS i
    rw [Gang.rest_of_not hh] at this
    have ti := this.touch hx'
    refine ⟨Classical.byContradiction fun hn => ?_, ti⟩
    rw [hN i hn] at ti; obtain ⟨_, hm, _⟩ := ti; cases hm
  have inhr : ∀ i, T.holds i = none → T.touches ((ho.add hr).add hf) i x → (hr.b x).isSome = true := fun i hh hx => by
    obtain ⟨hm, y, hy, hy'⟩ := mine i hh hx
    obtain ⟨z, hz, rfl⟩ := List.mem_map.1 hy
    exact blocksV_isSome hB ⟨_, List.mem_map.2 ⟨z, List.mem_flatMap.2 ⟨i, hm, hz⟩, rfl⟩, hy'⟩
  have inho : ∀ i c, T.holds i = some c → T.touches ((ho.add hr).add hf) i x → (ho.b x).isSome = true := fun i c hh hx => by
    unfold Gang.Own at hO
    rw [Gang.holds_self hh] at hO
    unfold Gang.touches at hx
    rw [hh, Heap.add_assoc] at hx
    cases c with
    | taking y k => obtain ⟨n, _, hs⟩ := hO; exact hs.touch hx
    | giving y k => exact hO.2.touch hx
  cases e1 : T.holds i with
  | some c =>
    cases e2 : T.holds j with
    | some c' =>
      have := (Gang.holds_self e1).symm.trans (Gang.holds_self e2)
      simp only [Option.some.injEq, Prod.mk.injEq] at this
      exact hij this.1
    | none => exact disj_isSome hdo (inho i c e1 hi) (inhr j e2 hj)
  | none =>
    cases e2 : T.holds j with
    | some c' => exact disj_isSome hdo (inho j c' e2 hj) (inhr i e1 hi)
    | none =>
      obtain ⟨hil, ti⟩ := mine i e1 hi
      obtain ⟨hjl, tj⟩ := mine j e2 hj
      obtain ⟨rest, hr1, _, hr3⟩ := flatMap_split l hl i hil R
      rw [blocksV_perm hr1, blocksV_append] at hB
      obtain ⟨a, d, hd', rfl, ha, hb⟩ := hB
      have tj' : inLive (rest.map blk) x := by
        obtain ⟨y, hy, hy'⟩ := id tj
        obtain ⟨z, hz, rfl⟩ := List.mem_map.1 hy
        exact ⟨_, List.mem_map.2 ⟨z, hr3 j hjl (Ne.symm hij) z hz, rfl⟩, hy'⟩
      exact disj_isSome hd' (blocksV_isSome ha ti) (blocksV_isSome hb tj')

/-- a thread that is at its end does not hold the mutex -/
theorem GInv.not_inside {T : Gang X α} {failed : Bool} {h : Heap} (hG : GInv plat f I b Q l failed T h) {i : Nat} {a : α} (ha : T.threads i = .ret a) :
    T.holds i = none := by
  obtain ⟨R, fl, ho, hr, hS, hN, hin, hfl, hdo, rfl, hO, hB⟩ := hG
  cases e : T.holds i with
  | none => rfl
  | some c =>
    exfalso
    unfold Gang.Own at hO
    rw [Gang.holds_self e] at hO
    cases c with
    | taking y k => obtain ⟨n, h1, _⟩ := hO; rw [ha] at h1; cases h1
    | giving y k => obtain ⟨⟨p, n, h1⟩, _⟩ := hO; rw [ha] at h1; cases h1

theorem GInv.result {T : Gang X α} {failed : Bool} {h : Heap} (hG : GInv plat f I b Q l failed T h) {i : Nat} {a : α} (ha : T.threads i = .ret a) :
    Q i a := by
  have hn := hG.not_inside ha
  obtain ⟨R, fl, ho, hr, hS, _⟩ := hG
  have := hS i
  rw [Gang.rest_of_not hn, ha] at this
  exact this.2

/-- when all threads have ended, nothing is out and the mutex is free -/
theorem GInv.done {T : Gang X α} {failed : Bool} {h : Heap} (hG : GInv plat f I b Q l failed T h) (hd : ∀ i ∈ l, ∃ a, T.threads i = .ret a) :
    T.inside = none ∧ I b T.st [] h := by
  have hins : T.inside = none := by
    cases e : T.inside with
    | none => rfl
    | some jc =>
      obtain ⟨j, c⟩ := jc
      have hj : j ∈ l := by
        obtain ⟨R, fl, ho, hr, hS, hN, hin, _⟩ := hG
        exact hin j c e
      obtain ⟨a, ha⟩ := hd j hj
      have := hG.not_inside ha
      unfold Gang.holds at this
      rw [e] at this
      simp at this
  refine ⟨hins, ?_⟩
  obtain ⟨R, fl, ho, hr, hS, hN, hin, hfl, hdo, rfl, hO, hB⟩ := id hG
  have : l.flatMap R = [] := by
    rw [List.flatMap_eq_nil_iff]
    intro i hi
    obtain ⟨a, ha⟩ := hd i hi
    have h1 := hS i
    rw [Gang.rest_of_not (hG.not_inside ha), ha] at h1
    exact h1.1
  rw [this] at hO hB
  have hB : blocksV [] hr := hB
  rw [blocksV_nil] at hB
  have hB : hr = Heap.empty := hB
  rw [hB, Heap.add_empty]
  unfold Gang.Own at hO
  rw [hins] at hO
  exact hO

/-- If from now on only thread `i` moves, and the thread that holds the mutex now, then thread `i` comes to its end, or memory is exhausted. -/
def Gang.Finishes (sys : Sys) (T : Gang X α) (i : Nat) (w : World) : Prop :=
  ∃ sched : List Nat, (∀ j ∈ sched, j = i ∨ T.holds j ≠ none) ∧
    match T.run sys sched w with
    | .ok T' _ => ∃ a, T'.threads i = .ret a
    | .oom w' => w'.failed = true
    | .ub => False

theorem Gang.run_cons_ok {sys : Sys} {T T' : Gang X α} {i : Nat} {is : List Nat} {w w' : World} (h : T.step sys i w = .ok T' w') :
    T.run sys (i :: is) w = T'.run sys is w' := by
  rw [show T.run sys (i :: is) = T.step sys i >>= fun T' => T'.run sys is from rfl, M.bind_apply, h]

theorem Gang.run_cons_oom {sys : Sys} {T : Gang X α} {i : Nat} {is : List Nat} {w w' : World} (h : T.step sys i w = .oom w') :
    T.run sys (i :: is) w = .oom w' := by
  rw [show T.run sys (i :: is) = T.step sys i >>= fun T' => T'.run sys is from rfl, M.bind_apply, h]

theorem Gang.run_append {sys : Sys} {T T' : Gang X α} {is js : List Nat} {w w' : World} (h : T.run sys is w = .ok T' w') :
    T.run sys (is ++ js) w = T'.run sys js w' := by
  induction is generalizing T w with
  | nil => cases h; rfl
  | cons i is ih =>
    obtain ⟨T1, w1, h1, h2⟩ := bind_ok (show (T.step sys i >>= fun T' => T'.run sys is) w = .ok T' w' from h)
    rw [List.cons_append, Gang.run_cons_ok h1]
    exact ih h2

theorem Gang.run_append_oom {sys : Sys} {T : Gang X α} {is js : List Nat} {w w' : World} (h : T.run sys is w = .oom w') :
    T.run sys (is ++ js) w = .oom w' := by
  induction is generalizing T w with
  | nil => cases h
  | cons i is ih =>
    rw [List.cons_append]
    rw [show T.run sys (i :: is) = T.step sys i >>= fun T' => T'.run sys is from rfl, M.bind_apply] at h
    cases e : T.step sys i w with
    | ok T1 w1 => rw [e] at h; rw [Gang.run_cons_ok e]; exact ih h
    | oom w1 => rw [e] at h; rw [Gang.run_cons_oom e]; exact h
    | ub => rw [e] at h; cases h

/-- the call under way can end -/
def Gang.Releases (sys : Sys) (T : Gang X α) (i : Nat) (w : World) (P : Prog α → Prop) : Prop :=
  ∃ n, match T.run sys (List.replicate n i) w with
    | .ok T' _ => T'.inside = none ∧ P (T'.threads i) ∧ ∀ j, j ≠ i → T'.threads j = T.threads j
    | .oom w' => w'.failed = true
    | .ub => False

theorem Gang.Releases.next {sys : Sys} {T : Gang X α} {i : Nat} {w : World} {P : Prog α → Prop}
    (h : match T.step sys i w with
      | .ok T' w' => T'.Releases sys i w' P ∧ ∀ j, j ≠ i → T'.threads j = T.threads j
      | .oom w' => w'.failed = true
      | .ub => False) : T.Releases sys i w P := by
  cases e : T.step sys i w with
  | ok T' w' =>
    rw [e] at h
    obtain ⟨⟨n, hn⟩, hj⟩ := h
    refine ⟨n + 1, ?_⟩
    rw [List.replicate_succ, Gang.run_cons_ok e]
    cases e2 : T'.run sys (List.replicate n i) w' with
    | ok T'' w'' => rw [e2] at hn; exact ⟨hn.1, hn.2.1, fun j h => (hn.2.2 j h).trans (hj j h)⟩
    | oom w'' => rw [e2] at hn; exact hn
    | ub => rw [e2] at hn; exact hn
  | oom w' =>
    rw [e] at h
    refine ⟨1, ?_⟩
    rw [List.replicate_succ, Gang.run_cons_oom e]
    exact h
  | ub => rw [e] at h; exact h.elim

/-- One access fewer: a step of a call leads to one of the trees below. Proof helper, not code. -/
inductive Body.Below {g : Bool} {α : Type} : Body g α → Body g α → Prop
  | load {p k v} : Body.Below (k v) (.load p k)
  | store {p v k} : Body.Below k (.store p v k)
  | malloc {hg n k p} : Body.Below (k p) (.malloc hg n k)
  | free {hg p k} : Body.Below k (.free hg p k)
  | print {hg m k} : Body.Below k (.print hg m k)

theorem Body.Below.wf {g : Bool} {α : Type} (x : Body g α) : Acc (Body.Below) x := by
  induction x with
  | ret a => exact ⟨_, fun y h => by cases h⟩
  | ub => exact ⟨_, fun y h => by cases h⟩
  | null _ => exact ⟨_, fun y h => by cases h⟩
  | load p k ih => exact ⟨_, fun y h => by cases h; exact ih _⟩
  | store p v k ih => exact ⟨_, fun y h => by cases h; exact ih⟩
  | malloc _ n k ih => exact ⟨_, fun y h => by cases h; exact ih _⟩
  | free _ p k ih => exact ⟨_, fun y h => by cases h; exact ih⟩
  | print _ m k ih => exact ⟨_, fun y h => by cases h; exact ih⟩

theorem Body.Below.of_step {g : Bool} {α : Type} {sys : Sys} {x x' : Body g α} {w w' : World} (hx : ¬ ∃ r, x = .ret r) (h : x.step sys w = .ok x' w') :
    Body.Below x' x := by
  cases x with
  | ret a => exact absurd ⟨a, rfl⟩ hx
  | ub => cases h
  | null hg =>
    exfalso
    have e : (M.nullDeref : M (Body g α)) w = .ok x' w' := h
    unfold M.nullDeref at e
    split at e <;> cases e
  | load p k => obtain ⟨v, w1, _, h2⟩ := bind_ok h; cases h2; exact .load
  | store p v k => obtain ⟨v, w1, _, h2⟩ := bind_ok h; cases h2; exact .store
  | malloc hg n k => obtain ⟨v, w1, _, h2⟩ := bind_ok h; cases h2; exact .malloc
  | free hg p k => obtain ⟨v, w1, _, h2⟩ := bind_ok h; cases h2; exact .free
  | print hg m k => obtain ⟨v, w1, _, h2⟩ := bind_ok h; cases h2; exact .print

theorem Gang.step_inside {sys : Sys} {T : Gang X α} {i : Nat} {c : Visit X α} (h : T.inside = some (i, c)) (hov : c.over = none) :
    T.step sys i = c.step sys >>= fun c' => pure { T with inside := some (i, c') } := by
  have hh : T.holds i = some c := by
    unfold Gang.holds; rw [h]; exact if_pos rfl
  unfold Gang.step
  rw [hh]
  simp only [hov]

theorem Gang.step_over {sys : Sys} {T : Gang X α} {i : Nat} {c : Visit X α} (h : T.inside = some (i, c)) {r : X.S × Prog α} (hov : c.over = some r) :
    T.step sys i = pure { T.put i r.2 with st := r.1, inside := none } := by
  have hh : T.holds i = some c := by
    unfold Gang.holds; rw [h]; exact if_pos rfl
  unfold Gang.step
  rw [hh]
  simp only [hov]

theorem gang_release_taking (h : SoundAll plat X f I) (sys : Sys) (hsp : sys.plat = plat) (hl : l.Nodup) (i : Nat) (x : Body false (Nat × X.S))
    (k : Nat → Prog α) (T : Gang X α) (hi : T.inside = some (i, .taking x k)) (w : World)
    (hp hf : Heap) (hd : Heap.disj hp hf) (he : w.heap = hp.add hf) (hG : GInv plat f I b Q l w.failed T hp) :
    T.Releases sys i w (fun p => ∃ a, p = k a) := by
  have hil : i ∈ l := by obtain ⟨R, fl, ho, hr, hS, hN, hin, _⟩ := hG; exact hin _ _ hi
  induction Body.Below.wf x generalizing T w hp with
  | intro x _ ih =>
    have hst := gang_step h sys hsp hl T i hil w hp hf hd he hG
    refine Gang.Releases.next ?_
    by_cases hx : ∃ r, x = .ret r
    · obtain ⟨r, rfl⟩ := hx
      rw [Gang.step_over hi rfl]
      exact ⟨⟨0, rfl, ⟨_, if_pos rfl⟩, fun j _ => rfl⟩, fun j hj => if_neg hj⟩
    · have hov : (Visit.taking x k : Visit X α).over = none := by
        cases x <;> first | rfl | exact absurd ⟨_, rfl⟩ hx
      cases e : T.step sys i w with
      | ok T' w' =>
        rw [e] at hst
        obtain ⟨⟨h', hd', he', hG'⟩, _⟩ := hst
        rw [Gang.step_inside hi hov] at e
        obtain ⟨c', w1, h1, h2⟩ := bind_ok e
        obtain ⟨x', w2, h3, h4⟩ := bind_ok (show (x.step sys >>= fun x' => (pure (.taking x' k) : M (Visit X α))) w = _ from h1)
        cases h4; cases h2
        exact ⟨ih x' (.of_step hx h3) _ rfl w' h' hd' he' hG', fun _ _ => rfl⟩
      | oom w' => rw [e] at hst; exact hst
      | ub => rw [e] at hst; exact hst

theorem gang_release_giving (h : SoundAll plat X f I) (sys : Sys) (hsp : sys.plat = plat) (hl : l.Nodup) (i : Nat) (x : Body true X.S)
    (k : Prog α) (T : Gang X α) (hi : T.inside = some (i, .giving x k)) (w : World)
    (hp hf : Heap) (hd : Heap.disj hp hf) (he : w.heap = hp.add hf) (hG : GInv plat f I b Q l w.failed T hp) :
    T.Releases sys i w (fun p => p = k) := by
  have hil : i ∈ l := by obtain ⟨R, fl, ho, hr, hS, hN, hin, _⟩ := hG; exact hin _ _ hi
  induction Body.Below.wf x generalizing T w hp with
  | intro x _ ih =>
    have hst := gang_step h sys hsp hl T i hil w hp hf hd he hG
    refine Gang.Releases.next ?_
    by_cases hx : ∃ r, x = .ret r
    · obtain ⟨r, rfl⟩ := hx
      rw [Gang.step_over hi rfl]
      exact ⟨⟨0, rfl, if_pos rfl, fun j _ => rfl⟩, fun j hj => if_neg hj⟩
    · have hov : (Visit.giving x k : Visit X α).over = none := by
        cases x <;> first | rfl | exact absurd ⟨_, rfl⟩ hx
      cases e : T.step sys i w with
      | ok T' w' =>
        rw [e] at hst
        obtain ⟨⟨h', hd', he', hG'⟩, _⟩ := hst
        rw [Gang.step_inside hi hov] at e
        obtain ⟨c', w1, h1, h2⟩ := bind_ok e
        obtain ⟨x', w2, h3, h4⟩ := bind_ok (show (x.step sys >>= fun x' => (pure (.giving x' k) : M (Visit X α))) w = _ from h1)
        cases h4; cases h2
        exact ⟨ih x' (.of_step hx h3) _ rfl w' h' hd' he' hG', fun _ _ => rfl⟩
      | oom w' => rw [e] at hst; exact hst
      | ub => rw [e] at hst; exact hst

/-- While the mutex is free, a thread that moves alone comes to its end. -/
theorem gang_alone (h : SoundAll plat X f I) (sys : Sys) (hsp : sys.plat = plat) (hl : l.Nodup) (i : Nat) (hi : i ∈ l) (p : Prog α) (T : Gang X α)
    (hins : T.inside = none) (hT : T.threads i = p) (w : World) (hp hf : Heap) (hd : Heap.disj hp hf) (he : w.heap = hp.add hf)
    (hG : GInv plat f I b Q l w.failed T hp) :
    ∃ n, match T.run sys (List.replicate n i) w with
      | .ok T' _ => ∃ a, T'.threads i = .ret a
      | .oom w' => w'.failed = true
      | .ub => False := by
  have hno : ∀ (T : Gang X α), T.inside = none → T.holds i = none := fun T h => by unfold Gang.holds; rw [h]
  have next : ∀ (T : Gang X α) (w : World) (T' : Gang X α) (w' : World), T.step sys i w = .ok T' w' →
      (∃ n, match T'.run sys (List.replicate n i) w' with
        | .ok T' _ => ∃ a, T'.threads i = .ret a
        | .oom w' => w'.failed = true
        | .ub => False) →
      ∃ n, match T.run sys (List.replicate n i) w with
        | .ok T' _ => ∃ a, T'.threads i = .ret a
        | .oom w' => w'.failed = true
        | .ub => False := by
    rintro T w T' w' e ⟨n, hn⟩
    refine ⟨n + 1, ?_⟩
    rw [List.replicate_succ, Gang.run_cons_ok e]
    exact hn
  have after : ∀ (T : Gang X α) (w : World) (P : Prog α → Prop) (hp : Heap), Heap.disj hp hf → w.heap = hp.add hf →
      GInv plat f I b Q l w.failed T hp → T.Releases sys i w P →
      (∀ T' w' h', T'.inside = none → P (T'.threads i) → Heap.disj h' hf → w'.heap = h'.add hf → GInv plat f I b Q l w'.failed T' h' →
        ∃ n, match T'.run sys (List.replicate n i) w' with
        | .ok T' _ => ∃ a, T'.threads i = .ret a
        | .oom w' => w'.failed = true
        | .ub => False) →
      ∃ n, match T.run sys (List.replicate n i) w with
        | .ok T' _ => ∃ a, T'.threads i = .ret a
        | .oom w' => w'.failed = true
        | .ub => False := by
    rintro T w P hp hd he hG ⟨n, hn⟩ hk
    have hrun := gang_run h sys hsp hl (List.replicate n i) (fun j hj => (List.mem_replicate.1 hj).2 ▸ hi) T w hp hf hd he hG
    cases e : T.run sys (List.replicate n i) w with
    | ok T' w' =>
      rw [e] at hn hrun
      obtain ⟨⟨h', hd', he', hG'⟩, _⟩ := hrun
      obtain ⟨m, hm⟩ := hk T' w' h' hn.1 hn.2.1 hd' he' hG'
      refine ⟨n + m, ?_⟩
      rw [← List.replicate_append_replicate, Gang.run_append e]
      exact hm
    | oom w' => rw [e] at hn; exact ⟨n, by rw [e]; exact hn⟩
    | ub => rw [e] at hn; exact hn.elim
  induction p generalizing T w hp with
  | ret a => exact ⟨0, a, hT⟩
  | stop =>
    have hst := gang_step h sys hsp hl T i hi w hp hf hd he hG
    have e : T.step sys i w = .oom { w with failed := true } := by
      unfold Gang.step; rw [hno T hins, hT]; rfl
    rw [e] at hst
    exact ⟨1, by rw [List.replicate_succ, Gang.run_cons_oom e]⟩
  | ub =>
    have hst := gang_step h sys hsp hl T i hi w hp hf hd he hG
    unfold Gang.step at hst; rw [hno T hins, hT] at hst
    exact hst.elim
  | load q k ih =>
    have hst := gang_step h sys hsp hl T i hi w hp hf hd he hG
    cases e : T.step sys i w with
    | ok T' w' =>
      rw [e] at hst
      obtain ⟨⟨h', hd', he', hG'⟩, _⟩ := hst
      refine next T w T' w' e ?_
      unfold Gang.step at e; rw [hno T hins, hT] at e
      obtain ⟨v, w1, _, h2⟩ := bind_ok e
      cases h2
      exact ih v (T.put i (k v)) hins (if_pos rfl) w' h' hd' he' hG'
    | oom w' => rw [e] at hst; exact ⟨1, by rw [List.replicate_succ, Gang.run_cons_oom e]; exact hst⟩
    | ub => rw [e] at hst; exact hst.elim
  | store q v k ih =>
    have hst := gang_step h sys hsp hl T i hi w hp hf hd he hG
    cases e : T.step sys i w with
    | ok T' w' =>
      rw [e] at hst
      obtain ⟨⟨h', hd', he', hG'⟩, _⟩ := hst
      refine next T w T' w' e ?_
      unfold Gang.step at e; rw [hno T hins, hT] at e
      obtain ⟨v, w1, _, h2⟩ := bind_ok e
      cases h2
      exact ih (T.put i k) hins (if_pos rfl) w' h' hd' he' hG'
    | oom w' => rw [e] at hst; exact ⟨1, by rw [List.replicate_succ, Gang.run_cons_oom e]; exact hst⟩
    | ub => rw [e] at hst; exact hst.elim
  | alloc n k ih =>
    have hst := gang_step h sys hsp hl T i hi w hp hf hd he hG
    have e : T.step sys i w = .ok { T with inside := some (i, .taking (X.alloc T.st n) k) } w := by
      unfold Gang.step; rw [hno T hins, hT, hins]; rfl
    rw [e] at hst
    obtain ⟨⟨h', hd', he', hG'⟩, _⟩ := hst
    refine next T w _ w e (after _ w _ h' hd' he' hG' (gang_release_taking h sys hsp hl i _ k _ rfl w h' hf hd' he' hG') ?_)
    rintro T2 w2 h2 hi2 ⟨a, ha⟩ hd2 he2 hG2
    exact ih a T2 hi2 ha w2 h2 hd2 he2 hG2
  | dealloc q n k ih =>
    have hst := gang_step h sys hsp hl T i hi w hp hf hd he hG
    have e : T.step sys i w = .ok { T with inside := some (i, .giving (X.dealloc T.st q n) k) } w := by
      unfold Gang.step; rw [hno T hins, hT, hins]; rfl
    rw [e] at hst
    obtain ⟨⟨h', hd', he', hG'⟩, _⟩ := hst
    refine next T w _ w e (after _ w _ h' hd' he' hG' (gang_release_giving h sys hsp hl i _ k _ rfl w h' hf hd' he' hG') ?_)
    rintro T2 w2 h2 hi2 ha hd2 he2 hG2
    exact ih T2 hi2 ha w2 h2 hd2 he2 hG2

/-- There is no deadlock. -/
theorem gang_finish (h : SoundAll plat X f I) (sys : Sys) (hsp : sys.plat = plat) (hl : l.Nodup) (i : Nat) (hi : i ∈ l) (T : Gang X α)
    (w : World) (hp hf : Heap) (hd : Heap.disj hp hf) (he : w.heap = hp.add hf) (hG : GInv plat f I b Q l w.failed T hp) : T.Finishes sys i w := by
  cases hins : T.inside with
  | none =>
    obtain ⟨n, hn⟩ := gang_alone h sys hsp hl i hi _ T hins rfl w hp hf hd he hG
    exact ⟨_, fun j hj => .inl (List.mem_replicate.1 hj).2, hn⟩
  | some jc =>
    obtain ⟨j, c⟩ := jc
    have hjl : j ∈ l := by obtain ⟨R, fl, ho, hr, hS, hN, hin, _⟩ := hG; exact hin _ _ hins
    have hrel : T.Releases sys j w (fun _ => True) := by
      cases c with
      | taking x k =>
        obtain ⟨n, hn⟩ := gang_release_taking h sys hsp hl j x k T hins w hp hf hd he hG
        refine ⟨n, ?_⟩
        cases e : T.run sys (List.replicate n j) w with
        | ok T' w' => rw [e] at hn; exact ⟨hn.1, trivial, hn.2.2⟩
        | oom w' => rw [e] at hn; exact hn
        | ub => rw [e] at hn; exact hn
      | giving x k =>
        obtain ⟨n, hn⟩ := gang_release_giving h sys hsp hl j x k T hins w hp hf hd he hG
        refine ⟨n, ?_⟩
        cases e : T.run sys (List.replicate n j) w with
        | ok T' w' => rw [e] at hn; exact ⟨hn.1, trivial, hn.2.2⟩
        | oom w' => rw [e] at hn; exact hn
        | ub => rw [e] at hn; exact hn
    have hjh : T.holds j ≠ none := by unfold Gang.holds; rw [hins]; simp
    obtain ⟨n, hn⟩ := hrel
    have hrun := gang_run h sys hsp hl (List.replicate n j) (fun j' hj => (List.mem_replicate.1 hj).2 ▸ hjl) T w hp hf hd he hG
    cases e : T.run sys (List.replicate n j) w with
    | ok T' w' =>
      rw [e] at hn hrun
      obtain ⟨⟨h', hd', he', hG'⟩, _⟩ := hrun
      obtain ⟨m, hm⟩ := gang_alone h sys hsp hl i hi _ T' hn.1 rfl w' h' hf hd' he' hG'
      refine ⟨List.replicate n j ++ List.replicate m i, fun j' hj' => ?_, ?_⟩
      · rcases List.mem_append.1 hj' with h1 | h1
        · rw [(List.mem_replicate.1 h1).2]; exact .inr hjh
        · exact .inl (List.mem_replicate.1 h1).2
      · rw [Gang.run_append e]; exact hm
    | oom w' =>
      rw [e] at hn
      exact ⟨List.replicate n j, fun j' hj' => .inr ((List.mem_replicate.1 hj').2 ▸ hjh), by rw [e]; exact hn⟩
    | ub => rw [e] at hn; exact hn.elim

end
end KTL

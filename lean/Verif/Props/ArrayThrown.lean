import Verif.Containers.ArrayThrown
import Verif.Props.Thrown
import Verif.Props.NarrowContainers

/- C105: arrays over allocators that throw. -/
namespace KTL

/-- the calls that copy an array: they are `noexcept` -/
def ArrOp.copies : ArrOp → Bool
  | .copy _ | .copyAssign _ _ => true
  | _ => false

/-! ### A call that does not throw does what it does over an allocator that returns null instead -/

section
variable {β γ : Type}

/-- `x` does what `y` does, or what `G` says. Proof helper. -/
def XFollows (y : M β) (x : M γ) (R : β → γ) (G : World → γ → World → Prop) : Prop := ∀ w, match x w with
  | .ok g w' => (∃ b, g = R b ∧ y w = .ok b w') ∨ G w g w'
  | .oom w' => y w = .oom w'
  | .ub => y w = .ub

theorem XFollows.ret (y : M β) (R : β → γ) (G : World → γ → World → Prop) : XFollows y (y >>= fun b => pure (R b)) R G := by
  intro w
  rw [M.bind_apply]
  cases y w with
  | ok b w' => exact .inl ⟨b, rfl, rfl⟩
  | oom w' => rfl
  | ub => rfl

theorem XFollows.here (b : β) (R : β → γ) (G : World → γ → World → Prop) : XFollows (pure b) (pure (R b)) R G := fun _ => .inl ⟨b, rfl, rfl⟩

theorem XFollows.of_eq {y y' : M β} {x x' : M γ} {R : β → γ} {G : World → γ → World → Prop} (h : XFollows y x R G) (hy : y' = y) (hx : x' = x) :
    XFollows y' x' R G := by rw [hy, hx]; exact h

theorem XFollows.mono {y : M β} {x : M γ} {R : β → γ} {G G' : World → γ → World → Prop} (h : XFollows y x R G) (hG : ∀ w g w', G w g w' → G' w g w') :
    XFollows y x R G' := by
  intro w
  have := h w
  cases hx : x w with
  | ok g w' =>
    rw [hx] at this
    rcases this with h1 | h1
    · exact .inl h1
    · exact .inr (hG _ _ _ h1)
  | oom w' => rw [hx] at this; exact this
  | ub => rw [hx] at this; exact this

theorem XFollows.first {δ : Type} (a : M δ) {y : δ → M β} {x : δ → M γ} {R : β → γ} {P : γ → Prop}
    (h : ∀ d, XFollows (y d) (x d) R fun _ g _ => P g) : XFollows (a >>= y) (a >>= x) R fun _ g _ => P g := by
  intro w
  rw [M.bind_apply, M.bind_apply]
  cases a w with
  | ok d w1 => exact h d w1
  | oom w' => rfl
  | ub => rfl

theorem XFollows.grab {X : XAlloc} {sz n : Nat} {s : X.St} {y : Nat × X.St → M β} {x : Option Nat × X.St → M γ} {R : β → γ} {T : X.St → γ}
    (h1 : ∀ p s', x (some p, s') = y (p, s') >>= fun b => pure (R b)) (h2 : ∀ s', x (none, s') = pure (T s')) :
    XFollows (grab sz X.toA s n >>= y) (xgrab sz X s n >>= x) R fun w g w' => ∃ s', X.alloc s (mulW sz n) w = .ok (none, s') w' ∧ g = T s' := by
  intro w
  cases ha : X.alloc s (mulW sz n) w with
  | oom w' => simp only [KTL.grab, xgrab, typedAlloc, XAlloc.toA, M.bind_apply, ha]
  | ub => simp only [KTL.grab, xgrab, typedAlloc, XAlloc.toA, M.bind_apply, ha]
  | ok r w1 =>
    obtain ⟨r1, s1⟩ := r
    cases r1 with
    | none =>
      have e : (xgrab sz X s n >>= x) w = x (none, s1) w1 := by
        simp [xgrab, M.bind_apply, ha]
        rfl
      rw [e, h2]
      exact .inr ⟨s1, ha, rfl⟩
    | some p =>
      by_cases hc : p = 0 ∧ n ≠ 0
      · have e : (xgrab sz X s n >>= x) w = .oom { w1 with failed := true } := by
          simp [xgrab, M.bind_apply, ha, hc]
          rfl
        have e' : (KTL.grab sz X.toA s n >>= y) w = .oom { w1 with failed := true } := by
          simp [KTL.grab, typedAlloc, XAlloc.toA, M.bind_apply, ha, hc]
          rfl
        rw [e, e']
      · have e : (xgrab sz X s n >>= x) w = x (some p, s1) w1 := by
          simp [xgrab, M.bind_apply, ha, hc]
          rfl
        have e' : (KTL.grab sz X.toA s n >>= y) w = y (p, s1) w1 := by
          simp [KTL.grab, typedAlloc, XAlloc.toA, M.bind_apply, ha, hc]
          rfl
        rw [e, e', h1]
        exact XFollows.ret (y (p, s1)) R (fun _ g w' => ∃ s', X.alloc s (mulW sz n) w = .ok (none, s') w' ∧ g = T s') w1
end

/-- how a call that does not return ends. Proof helper. -/
def Unfinished (sz : Nat) {X : XAlloc} (c : Arrs X.toA) (o : ArrOp) (w : World) (e : XEnd X) (w' : World) : Prop := match e with
  | .returned _ => False
  | .threw c' => ∃ n s', n ≤ o.weight ∧ (n = 0 → o.mayBeEmpty = true) ∧ X.alloc c.st (mulW sz n) w = .ok (none, s') w' ∧ c' = { c with st := s' }
  | .ended => o.copies = true

theorem Arrs.stepX_follows (sz : Nat) {X : XAlloc} (c : Arrs X.toA) (o : ArrOp) :
    XFollows (c.step sz o) (c.stepX sz o) .returned (Unfinished sz c o) := by
  have threw : ∀ n, n ≤ o.weight → (n = 0 → o.mayBeEmpty = true) → ∀ w (e : XEnd X) w',
      (∃ s', X.alloc c.st (mulW sz n) w = .ok (none, s') w' ∧ e = .threw { c with st := s' }) → Unfinished sz c o w e w' := by
    rintro n h1 h2 w e w' ⟨s', h3, rfl⟩
    exact ⟨n, s', h1, h2, h3, rfl⟩
  cases o with
  | newSize n =>
    simp only [Arrs.step, Arrs.stepX, Arr.ofSize, Arr.ofSizeX, bind_assoc, pure_bind]
    refine XFollows.mono (XFollows.grab (T := fun s' => .threw { c with st := s' }) (fun p s' => ?_) (fun s' => ?_)) (threw n (Nat.le_refl _) (by rintro rfl; rfl))
    · simp only [bind_assoc, pure_bind, Arrs.made]
    · simp only [bind_assoc, pure_bind, Arrs.made]
  | newFill n x =>
    simp only [Arrs.step, Arrs.stepX]
    split
    · simp only [Arr.ofSize, Arr.ofFill, Arr.ofFillX, bind_assoc, pure_bind]
      refine XFollows.mono (XFollows.grab (T := fun s' => .threw { c with st := s' }) (fun p s' => ?_) (fun s' => ?_)) (threw n (Nat.le_refl _) (by rintro rfl; rfl))
      · by_cases hn : n = 0 <;> simp only [hn, if_true, if_false, bind_assoc, pure_bind, Arrs.made]
      · simp only [bind_assoc, pure_bind, Arrs.made]
    · exact XFollows.here _ _ _
  | newRange xs =>
    simp only [Arrs.step, Arrs.stepX]
    split
    · simp only [Arr.ofSize, Arr.ofRange, Arr.ofRangeX, bind_assoc, pure_bind]
      refine XFollows.mono (XFollows.grab (T := fun s' => .threw { c with st := s' }) (fun p s' => ?_) (fun s' => ?_))
        (threw xs.length (Nat.le_refl _) (fun h => by rw [List.length_eq_zero_iff.1 h]; rfl))
      · simp only [bind_assoc, pure_bind, Arrs.made]
      · simp only [bind_assoc, pure_bind, Arrs.made]
    · exact XFollows.here _ _ _
  | copy j =>
    simp only [Arrs.step, Arrs.stepX]
    cases c.vs[j]? with
    | none => exact XFollows.here _ _ _
    | some o =>
      simp only [Arr.ofSize, Arr.copy, Arr.copyX, bind_assoc, pure_bind]
      refine XFollows.mono (XFollows.grab (T := fun _ => .ended) (fun p s' => ?_) (fun s' => ?_)) ?_
      · by_cases hn : o.beg = 0 <;> simp only [hn, ne_eq, not_true, not_false_eq_true, if_true, if_false, bind_assoc, pure_bind]
      · simp only [bind_assoc, pure_bind]
      · rintro w g w' ⟨s', _, rfl⟩; rfl
  | copyAssign i j =>
    simp only [Arrs.step, Arrs.stepX]
    split
    · exact XFollows.here _ _ _
    · unfold Arrs.copyAssign Arrs.copyAssignX
      cases h1 : c.vs[i]? with
      | none => exact XFollows.here _ _ _
      | some v =>
        cases h2 : c.vs[j]? with
        | none => exact XFollows.here _ _ _
        | some o =>
          dsimp only
          refine XFollows.mono (XFollows.first (P := fun (e : XEnd X) => e = .ended) _ fun s => ?_) (by rintro w g w' rfl; rfl)
          simp only [Arr.ofSize, bind_assoc, pure_bind]
          refine XFollows.mono (XFollows.grab (T := fun _ => .ended) (fun p s' => ?_) (fun s' => ?_)) ?_
          · simp only [bind_assoc, pure_bind]
            rfl
          · simp only [bind_assoc, pure_bind]
          · rintro w g w' ⟨s', _, rfl⟩; rfl
  | resize i n =>
    simp only [Arrs.step, Arrs.stepX]
    cases c.vs[i]? with
    | none => exact XFollows.here _ _ _
    | some v =>
      dsimp only
      unfold Arr.resize Arr.resizeX
      split
      · simp only [bind_assoc, pure_bind]
        refine XFollows.mono (XFollows.grab (T := fun s' => .threw { c with st := s' }) (fun p s' => ?_) (fun s' => ?_)) (threw n (Nat.le_refl _) (by rintro rfl; rfl))
        · by_cases hn : v.beg = 0 <;> simp only [hn, ne_eq, not_true, not_false_eq_true, if_true, if_false, bind_assoc, pure_bind, Arrs.changed]
        · simp only [bind_assoc, pure_bind, Arrs.changed]
      · exact XFollows.here _ _ _
  | assign i xs =>
    simp only [Arrs.step, Arrs.stepX]
    cases c.vs[i]? with
    | none => exact XFollows.here _ _ _
    | some v =>
      dsimp only
      split
      · unfold Arr.assign Arr.assignX Arr.assignRoom
        split
        · simp only [bind_assoc, pure_bind]
          refine XFollows.mono (XFollows.grab (T := fun s' => .threw { c with st := s' }) (fun p s' => ?_) (fun s' => ?_))
            (threw xs.length (Nat.le_refl _) (fun h => by rw [List.length_eq_zero_iff.1 h]; rfl))
          · simp only [bind_assoc, pure_bind, Arrs.changed]
          · simp only [bind_assoc, pure_bind, Arrs.changed]
        · refine (XFollows.ret _ _ _).of_eq rfl ?_
          simp only [bind_assoc, pure_bind, Arrs.changed]
      · exact XFollows.here _ _ _
  | assignFrom i j a n =>
    simp only [Arrs.step, Arrs.stepX]
    cases h1 : c.vs[i]? with
    | none => exact XFollows.here _ _ _
    | some v =>
      cases h2 : c.vs[j]? with
      | none => exact XFollows.here _ _ _
      | some o =>
        dsimp only
        split
        · unfold Arr.assign Arr.assignX Arr.assignRoom
          split
          · simp only [bind_assoc, pure_bind]
            refine XFollows.mono (XFollows.grab (T := fun s' => .threw { c with st := s' }) (fun p s' => ?_) (fun s' => ?_)) (threw n (Nat.le_refl _) (by rintro rfl; rfl))
            · simp only [bind_assoc, pure_bind, Arrs.changed]
            · simp only [bind_assoc, pure_bind, Arrs.changed]
          · refine (XFollows.ret _ _ _).of_eq rfl ?_
            simp only [bind_assoc, pure_bind, Arrs.changed]
        · exact XFollows.here _ _ _
  | _ => exact XFollows.ret _ _ _

/-- an exception of `allocate` leaves the blocks of the clients alone -/
theorem thrown_pool {X : XAlloc} {f : Nat → Prop} (hX : XSound X f) (b : Nat) (s : X.St) (R : List (Nat × List UInt8)) (m : Nat) (hm : f m)
    (hw : m < W64) : Triple (Pool hX.sound b s R) (X.toA.alloc s m) (fun r x => r.1 = 0 → Pool hX.sound b r.2 R x) := by
  refine ((hX.sound.alloc_spec b s _ m hm hw).frame _).post fun r x hx h0 => ?_
  obtain ⟨h1, h2, hd, he, h3 | h3, h4⟩ := hx
  · exact ⟨h1, h2, hd, he, h3.2, h4⟩
  · exact absurd h0 h3.1.1

theorem ArrOp.not_copies {o : ArrOp} (h : o.mayBeEmpty = false) : o.copies = false := by
  cases o <;> first | rfl | simp [ArrOp.mayBeEmpty] at h

/-- One call: it returns with the arrays as they should be, or throws with the arrays as they were. -/
theorem xastep {X : XAlloc} {f : Nat → Prop} (hX : XSound X f) (b sz T N : Nat) (p : XArrs X) (S : Seqs) (o : ArrOp) (hz : 0 < sz)
    (hfit : ∀ n, 0 < n → n ≤ 2 * N → sz * n < W64 ∧ f (sz * n)) (h0 : o.mayBeEmpty = false) (hN : T + o.weight ≤ N) (ho : p.over = false) :
    Triple (AInv hX.sound b sz T p.c S) (p.step sz o) (fun p' x => p'.over = false ∧
      ((p'.did = p.did ++ [o] ∧ p'.threw = p.threw ∧ ∃ S', S.AStep sz o S' ∧ AInv hX.sound b sz (T + o.weight) p'.c S' x) ∨
       (p'.did = p.did ∧ p'.threw = p.threw ++ [o] ∧ AInv hX.sound b sz (T + o.weight) p'.c S x))) := by
  intro w h hf hd he hp
  have h1 := astep hX.sound b sz T N p.c S o hz hfit (fun e => by rw [h0] at e; cases e) hN w h hf hd he hp
  have h2 := p.c.stepX_follows sz o w
  simp only [XArrs.step, M.bind_apply]
  cases hx : p.c.stepX sz o w with
  | ub => rw [hx] at h2; rw [h2] at h1; exact h1
  | oom w' => rw [hx] at h2; rw [h2] at h1; exact h1
  | ok e w' =>
    rw [hx] at h2
    rcases h2 with ⟨c', rfl, h3⟩ | h3
    · rw [h3] at h1
      obtain ⟨⟨h', hd', he', hS⟩, hna⟩ := h1
      exact ⟨⟨h', hd', he', ho, .inl ⟨rfl, rfl, hS⟩⟩, hna⟩
    · cases e with
      | returned c' => exact absurd h3 id
      | ended =>
        have h4 : o.copies = true := h3
        rw [ArrOp.not_copies h0] at h4; cases h4
      | threw c' =>
        obtain ⟨n, s', hn, hn0, ha, rfl⟩ := h3
        obtain ⟨Γ, hv, hxs, hs, hok, hpool⟩ := hp
        have hn1 : 0 < n := by
          rcases Nat.eq_zero_or_pos n with e | e
          · rw [hn0 e] at h0; cases h0
          · exact e
        have hw := hfit n hn1 (by omega)
        have hm : mulW sz n = sz * n := Nat.mod_eq_of_lt hw.1
        have h4 := thrown_pool hX b p.c.st _ (mulW sz n) (by rw [hm]; exact hw.2) (by rw [hm]; exact hw.1) w h hf hd he hpool
        have e : X.toA.alloc p.c.st (mulW sz n) w = .ok (0, s') w' := by
          simp only [XAlloc.toA, M.bind_apply, ha]; rfl
        rw [e] at h4
        obtain ⟨⟨h', hd', he', hq⟩, hna⟩ := h4
        exact ⟨⟨h', hd', he', ho, .inr ⟨rfl, rfl, Γ, hv, hxs, hs, fun g hg => (hok g hg).mono (by omega), hq rfl⟩⟩, hna⟩

theorem xarun {X : XAlloc} {f : Nat → Prop} (hX : XSound X f) (b sz N : Nat) (hz : 0 < sz)
    (hfit : ∀ n, 0 < n → n ≤ 2 * N → sz * n < W64 ∧ f (sz * n)) (ops : List ArrOp) (h0 : ∀ o ∈ ops, o.mayBeEmpty = false)
    (T : Nat) (p : XArrs X) (S : Seqs) (hN : T + aweights ops ≤ N) (ho : p.over = false) :
    Triple (AInv hX.sound b sz T p.c S) (p.run sz ops) (fun p' x => p'.over = false ∧ ∃ did thr, p'.did = p.did ++ did ∧
      p'.threw = p.threw ++ thr ∧ did.Sublist ops ∧ (did ++ thr).Perm ops ∧
      ∃ S', S.ARun sz did S' ∧ AInv hX.sound b sz (T + aweights ops) p'.c S' x) := by
  induction ops generalizing T p S with
  | nil => exact Triple.pure _ (fun x hx => ⟨ho, [], [], by simp, by simp, .slnil, .nil, S, .nil S, hx⟩)
  | cons o os ih =>
    simp only [aweights] at hN
    simp only [XArrs.run, ho, Bool.false_eq_true, if_false]
    refine Triple.bind (xastep hX b sz T N p S o hz hfit (h0 o (by simp)) (by omega) ho) (fun p' => ?_)
    refine Triple.and fun ho' => Triple.or ?_ ?_
    · refine Triple.and fun hdid => Triple.and fun hthr => Triple.exists fun S' => Triple.and fun hS' => ?_
      refine (ih (fun o' h => h0 o' (by simp [h])) (T + o.weight) p' S' (by omega) ho').post (fun p'' x hx => ?_)
      obtain ⟨h1, did, thr, h2, h3, h4, h5, S'', h6, h7⟩ := hx
      refine ⟨h1, o :: did, thr, by rw [h2, hdid]; simp, by rw [h3, hthr], h4.cons_cons o, h5.cons o, S'', .cons hS' h6, ?_⟩
      simp only [aweights]
      rw [← Nat.add_assoc]; exact h7
    · refine Triple.and fun hdid => Triple.and fun hthr => ?_
      refine (ih (fun o' h => h0 o' (by simp [h])) (T + o.weight) p' S (by omega) ho').post (fun p'' x hx => ?_)
      obtain ⟨h1, did, thr, h2, h3, h4, h5, S'', h6, h7⟩ := hx
      refine ⟨h1, did, o :: thr, by rw [h2, hdid], by rw [h3, hthr]; simp, h4.cons o, List.perm_middle.trans (h5.cons o), S'', h6, ?_⟩
      simp only [aweights]
      rw [← Nat.add_assoc]; exact h7

theorem xaplay_spec {X : XAlloc} {f : Nat → Prop} (hX : XSound X f) (b sz : Nat) (hz : 0 < sz) (ops : List ArrOp)
    (hfit : ∀ n, 0 < n → n ≤ 2 * aweights ops → sz * n < W64 ∧ f (sz * n)) (h0 : ∀ o ∈ ops, o.mayBeEmpty = false)
    (h1 : b ≠ 0) (h2 : b % 16 = 0) (h3 : b + X.objSize < W64) :
    Triple (bytes b X.objSize) (xaplay sz X b ops) (ended (fun p x => p.over = false ∧ p.did.Sublist ops ∧ (p.did ++ p.threw).Perm ops ∧
      ∃ S, Seqs.ARun sz ⟨[], []⟩ p.did S ∧ AInv hX.sound b sz (aweights ops) p.c S x) (bytes b X.objSize)) := by
  refine Triple.bind (hX.init_spec b h1 h2 h3) (fun s => ?_)
  cases s with
  | none => exact Triple.pure _ fun _ hh => hh
  | some s =>
    have := xarun hX b sz _ hz hfit ops h0 0 { c := { st := s, vs := [] } } ⟨[], []⟩ (by omega) rfl
    rw [Nat.zero_add] at this
    refine Triple.bind (this.pre (fun x hx => ?_)) fun p => Triple.pure _ fun x hx => ?_
    · refine ⟨[], rfl, rfl, rfl, fun g hg => by simp at hg, ?_⟩
      show (hX.sound.Inv b s [] ∗ blocksV []) x
      rw [blocksV_nil, star_emp]; exact hx
    · obtain ⟨h1, did, thr, h2, h3, h4, h5, S, h6, h7⟩ := hx
      simp only [List.nil_append] at h2 h3
      subst h2; subst h3
      exact ⟨h1, h4, h5, S, h6, h7⟩

theorem xalife_spec {X : XAlloc} {f : Nat → Prop} (hX : XSound X f) (b sz : Nat) (hz : 0 < sz) (ops : List ArrOp)
    (hfit : ∀ n, 0 < n → n ≤ 2 * aweights ops → sz * n < W64 ∧ f (sz * n)) (h0 : ∀ o ∈ ops, o.mayBeEmpty = false)
    (h1 : b ≠ 0) (h2 : b % 16 = 0) (h3 : b + X.objSize < W64) :
    Triple (bytes b X.objSize) (xalife sz X b ops) (fun _ => bytes b X.objSize) := by
  refine Triple.bind (xaplay_spec hX b sz hz ops hfit h0 h1 h2 h3) (fun o => ?_)
  cases o with
  | none => exact Triple.pure _ fun _ hh => hh
  | some p =>
    refine Triple.and fun ho => Triple.and fun _ => Triple.and fun _ => Triple.exists fun S => Triple.and fun _ => Triple.exists fun Γ =>
      Triple.and fun hv => Triple.and fun _ => Triple.and fun _ => Triple.and fun hok => ?_
    simp only [ho, Bool.false_eq_true, if_false]
    rw [Arrs.destroyAll_vec, show p.c.vs.map Arr.vec = Γ.map Ghost.v from hv]
    have hW : ∀ n, n ≤ 2 * aweights ops → sz * n < W64 := fun n hn => by
      by_cases h : n = 0
      · subst h; rw [Nat.mul_zero]; decide
      · exact (hfit n (by omega) hn).1
    exact Triple.bind (destroyAll_spec hX.sound b sz _ hz hW Γ hok p.c.st) (fun s => hX.sound.fini_spec b s)

/-! ### A class that may throw, with a ledger -/

/-- `X` with a ledger and checks, as `strict`. Specification device, not code. -/
def xstrict (X : XAlloc) : XAlloc where
  St := X.St × Ledger
  objSize := X.objSize
  init b := do
    match ← X.init b with
    | none => pure none
    | some s => pure (some (s, {}))
  alloc s n := do
    let r ← X.alloc s.1 n
    pure (r.1, (r.2, s.2.got (r.1.getD 0) n))
  dealloc := (strict X.toA).dealloc
  owns := (strict X.toA).owns
  maxSize := (strict X.toA).maxSize
  construct := X.construct.map fun c s p thr => do
    let a ← c s.1 p thr
    pure (a, s.2)
  destroy := (strict X.toA).destroy
  fini := (strict X.toA).fini

/-- Proof helper, not code. -/
def xstrict_sound {X : XAlloc} {f : Nat → Prop} (hX : XSound X f) : XSound (xstrict X) f :=
  let hS := strict_sound hX.sound
  have hi : ∀ b, b ≠ 0 → b % 16 = 0 → b + X.objSize < W64 →
      Triple (bytes b X.objSize) ((xstrict X).init b) (ended (fun s => hS.Inv b s []) (bytes b X.objSize)) := by
    intro b h1 h2 h3
    refine Triple.bind (hX.init_spec b h1 h2 h3) fun o => ?_
    cases o with
    | none => exact Triple.pure _ fun _ hh => hh
    | some s => exact Triple.pure _ fun _ hh => ⟨⟨.refl _, rfl⟩, hh⟩
  have hc : ∀ c, (xstrict X).construct = some c → ∀ b s L p thr, Triple (hS.Inv b s L) (c s p thr) (fun s' => hS.Inv b s' L) := by
    intro c hc b s L p thr
    obtain ⟨c', hc', rfl⟩ := Option.map_eq_some_iff.1 hc
    refine Triple.and (fun hp => ?_)
    exact Triple.bind (hX.construct_spec c' hc' b s.1 L p thr) (fun a => Triple.pure _ (fun h hh => ⟨hp, hh⟩))
  { sound := hS.with3 _ _ _ (fun b h1 h2 h3 => toA_init (hi b h1 h2 h3))
      (fun b s L n hf hn => by
        have := hS.alloc_spec b s L n hf hn
        simp only [strict, XAlloc.toA, bind_assoc, pure_bind] at this
        have e : (xstrict X).toA.alloc s n = (do
            let r ← X.alloc s.1 n
            pure (r.1.getD 0, (r.2, s.2.got (r.1.getD 0) n))) := by
          simp only [XAlloc.toA, xstrict, bind_assoc, pure_bind]
        exact (congrArg (fun c => Triple (hS.Inv b s L) c _) e).mpr this)
      (construct_toA (X := xstrict X) hc)
    init_spec := hi
    construct_spec := hc }

/-- what the invariant says about one array -/
theorem AInv.contents {A : Allocator} {fA : Nat → Prop} {hA : Sound A fA} {b sz T : Nat} {c : Arrs A} {S : Seqs} {h' : Heap} (hz : 0 < sz)
    (hinv : AInv hA b sz T c S h') : c.vs.length = S.xs.length ∧
    ∀ (i : Nat) (v : Arr) (xs : List (List UInt8)), c.vs[i]? = some v → S.xs[i]? = some xs → v.size sz = xs.length ∧
      ∀ (k : Nat) (e : List UInt8), xs[k]? = some e → e.length = sz ∧ ∀ j, j < sz → h'.b (v.beg + k * sz + j) = e[j]? := by
  obtain ⟨Γ, hv, hx, hseen, hok, hpool⟩ := hinv
  have hlen : c.vs.length = S.xs.length := by
    have := congrArg List.length hv
    rw [hx, List.length_map] at *
    simpa [Arrs.vecs] using this
  refine ⟨hlen, fun i v xs hi hi' => ?_⟩
  rcases VInv.get hv hx i with ⟨_, _, h2⟩ | ⟨g, h1, h1', h2, h3⟩
  · rw [h2] at hi'; cases hi'
  · rw [h3] at hi'
    obtain rfl := Option.some.inj hi'
    replace h2 : (c.vs.map Arr.vec)[i]? = some g.v := h2
    rw [List.getElem?_map, hi] at h2
    have hve : v.vec = g.v := Option.some.inj h2
    have hg := (hok g h1').rep
    rw [← hve] at hg
    refine ⟨hg.size_eq hz, fun k e hk => ?_⟩
    obtain ⟨hk1, rfl⟩ := List.getElem?_eq_some_iff.1 hk
    have hel := hg.elems _ (List.getElem_mem hk1)
    refine ⟨hel, fun j hj => ?_⟩
    have hlt : k * sz + sz ≤ g.xs.length * sz := by
      have := Nat.mul_le_mul_right sz hk1
      rw [Nat.succ_mul] at this; exact this
    have e1 := pools_contents hpool hg (fun y hy => List.mem_flatMap.2 ⟨g, h1', by unfold Ghost.own; rw [← hve]; exact hy⟩) (k * sz + j) (by omega)
    have e2 : g.xs.flatten[k * sz + j]? = g.xs[k][j]? := by
      have hsl := hg.slice k 1 hk1
      rw [List.drop_eq_getElem_cons hk1, List.take_succ_cons, List.take_zero, List.flatten_singleton, Nat.one_mul] at hsl
      rw [← hg.data, List.getElem?_take_of_lt (by omega), ← hsl, List.getElem?_take_of_lt hj, List.getElem?_drop]
    rw [e2] at e1
    have hj' : j < g.xs[k].length := by rw [hel]; exact hj
    rw [List.getElem?_eq_getElem hj'] at e1 ⊢
    rw [Nat.add_assoc]
    exact e1

theorem storage_back {w w' : World} {h' hf : Heap} {b n : Nat} (he' : w'.heap = h'.add hf) (hby : bytes b n h')
    (hfb : ∀ x, hf.b x = if b ≤ x ∧ x < b + n then none else w.heap.b x) (hft : hf.t = w.heap.t) :
    (∀ x, ¬ (b ≤ x ∧ x < b + n) → w'.heap.b x = w.heap.b x) ∧
      (∀ x, b ≤ x → x < b + n → (w'.heap.b x).isSome = true) ∧ ∀ a, w'.heap.t a = w.heap.t a := by
  refine ⟨fun x hx => ?_, fun x h1 h2 => ?_, fun a => ?_⟩
  · have : h'.b x = none := isSome_eq_none.1 (mt (hby.2 x).1 hx)
    rw [he']
    simp only [Heap.add, this, hfb, hx, if_false]; rfl
  · rw [he']
    exact heap_left_isSome ((hby.2 x).2 ⟨h1, h2⟩)
  · rw [he']
    simp only [Heap.add, hby.1 a, hft]; rfl

/-! ### The properties -/

/-- Programs covered: no request for an empty array — a copy may be one —, and sizes small enough for all headers and guards, as `ASane`. -/
def XASane (t : XTy) (sz : Nat) (ops : List ArrOp) : Prop :=
  sz * (2 * aweights ops) + t.margin < 2 ^ 64 ∧ ∀ o ∈ ops, o.mayBeEmpty = false

theorem XASane.fits {t : XTy} {sz : Nat} {ops : List ArrOp} (h : XASane t sz ops) (hwf : t.WF) (hz : 0 < sz) (plat : Plat) :
    ∀ n, 0 < n → n ≤ 2 * aweights ops → sz * n < W64 ∧ t.fits plat (sz * n) := by
  have h1 := h.1
  intro n hn hle
  have hm : sz * n ≤ sz * (2 * aweights ops) := Nat.mul_le_mul_left _ hle
  have hp : 0 < sz * n := Nat.mul_pos hz hn
  exact ⟨by omega, t.fits_of_margin plat hwf _ hp (by omega)⟩

/-- **C105.** Arrays of any type of elements over allocators composed of the library's and of any users' that throw, used by any program
that catches the exceptions and goes on: there is no undefined behaviour, the calls that threw have changed nothing, and the others have
done what they do on sequences — so what the program has read and what the arrays hold at the end is what the calls that returned say, as
if the others had not been made. If the constructor of the allocator throws, nothing is left of it. -/
theorem C105_array_exceptions (sys : Sys) (t : XTy) (hwf : t.WF) (b : Nat) (w : World) (hs : Storage w b t.size) (sz : Nat) (hz : 0 < sz)
    (ops : List ArrOp) (hops : XASane t sz ops) :
    match xaplay sz (t.denote sys) b ops w with
    | .ok (some p) w' => p.over = false ∧ p.did.Sublist ops ∧ (p.did ++ p.threw).Perm ops ∧
        ∃ S, Seqs.ARun sz ⟨[], []⟩ p.did S ∧ p.c.seen = S.seen ∧ p.c.vs.length = S.xs.length ∧
        ∀ (i : Nat) (v : Arr) (xs : List (List UInt8)), p.c.vs[i]? = some v → S.xs[i]? = some xs → v.size sz = xs.length ∧
          ∀ (k : Nat) (e : List UInt8), xs[k]? = some e → e.length = sz ∧ ∀ j, j < sz → w'.heap.b (v.beg + k * sz + j) = e[j]?
    | .ok none w' => (∀ x, ¬ (b ≤ x ∧ x < b + t.size) → w'.heap.b x = w.heap.b x) ∧
        (∀ x, b ≤ x → x < b + t.size → (w'.heap.b x).isSome = true) ∧ ∀ a, w'.heap.t a = w.heap.t a
    | .oom w' => w'.failed = true
    | .ub => False := by
  rw [← t.objSize_eq sys] at hs ⊢
  obtain ⟨h0, hf, hd, he, hb, hfb, hft⟩ := storage_split hs
  have := xaplay_spec (t.sound sys hwf) b sz hz ops (hops.fits hwf hz sys.plat) hops.2 hs.1 hs.2.1 hs.2.2.1 w h0 hf hd he hb
  cases hp : xaplay sz (t.denote sys) b ops w with
  | oom w' => rw [hp] at this; exact this
  | ub => rw [hp] at this; exact this
  | ok o w' =>
    rw [hp] at this
    cases o with
    | none =>
      obtain ⟨⟨h', hd', he', hby⟩, hna⟩ := this
      exact storage_back he' hby hfb hft
    | some p =>
      obtain ⟨⟨h', hd', he', ho, hsub, hperm, S, hrun, hinv⟩, hna⟩ := this
      have hseen : p.c.seen = S.seen := by obtain ⟨Γ, _, _, h, _⟩ := hinv; exact h
      obtain ⟨hlen, hc⟩ := hinv.contents hz
      refine ⟨ho, hsub, hperm, S, hrun, hseen, hlen, fun i v xs hi hi' => ?_⟩
      obtain ⟨e1, e2⟩ := hc i v xs hi hi'
      refine ⟨e1, fun k e hk => ⟨(e2 k e hk).1, fun j hj => ?_⟩⟩
      have e3 := (e2 k e hk).2 j hj
      have hj' : j < e.length := by rw [(e2 k e hk).1]; exact hj
      rw [List.getElem?_eq_getElem hj'] at e3 ⊢
      rw [he']
      exact heap_add_left e3

/-- **C105, nothing lost.** The same programs, with an allocator that checks what it is given back: every block goes back once and with its
size, also those of calls around an exception, and after the arrays and the allocator are destroyed memory is as it was. -/
theorem C105_array_no_leak (sys : Sys) (t : XTy) (hwf : t.WF) (b : Nat) (w : World) (hs : Storage w b t.size) (sz : Nat) (hz : 0 < sz)
    (ops : List ArrOp) (hops : XASane t sz ops) :
    match xalife sz (xstrict (t.denote sys)) b ops w with
    | .ok _ w' => (∀ x, ¬ (b ≤ x ∧ x < b + t.size) → w'.heap.b x = w.heap.b x) ∧
        (∀ x, b ≤ x → x < b + t.size → (w'.heap.b x).isSome = true) ∧ ∀ a, w'.heap.t a = w.heap.t a
    | .oom w' => w'.failed = true
    | .ub => False := by
  rw [← t.objSize_eq sys] at hs ⊢
  obtain ⟨h0, hf, hd, he, hb, hfb, hft⟩ := storage_split hs
  have := xalife_spec (xstrict_sound (t.sound sys hwf)) b sz hz ops (hops.fits hwf hz sys.plat) hops.2 hs.1 hs.2.1 hs.2.2.1 w h0 hf hd he hb
  cases hp : xalife sz (xstrict (t.denote sys)) b ops w with
  | oom w' => rw [hp] at this; exact this
  | ub => rw [hp] at this; exact this
  | ok o w' =>
    rw [hp] at this
    obtain ⟨⟨h', hd', he', hby⟩, hna⟩ := this
    exact storage_back he' hby hfb hft

/-! ### The hypotheses can be met -/

/-- an arena that throws when it is full, and a list of free blocks in front of it. Example, not code. -/
def xarrTy : XTy := .fallback (.freelist 0 32 (.user (sternArena 96 (by decide)))) (.linear 64)

/-- a program that meets exceptions. Example, not code. -/
def xarrOps : List ArrOp :=
  [.newRange [[1, 2], [3, 4]], .newFill 3 [7, 8], .newSize 5, .newSize 6, .resize 0 4, .read 0 1, .newSize 20, .destroy 2, .resize 0 4,
    .read 0 1, .assign 1 [[5, 6]], .read 1 0]

example : xarrTy.WF ∧ Storage (demoWorld xarrTy.size) 4096 xarrTy.size ∧ XASane xarrTy 2 xarrOps := by
  refine ⟨?_, demoStorage _ (by decide), by decide, by decide⟩
  exact ⟨⟨trivial, by decide, by decide⟩, trivial, rfl⟩

/-- the program really meets two exceptions, and goes on after them -/
example : (xaplay 2 (xarrTy.denote (demoSys .direct)) 4096 xarrOps (demoWorld xarrTy.size)).test (fun o _ => match o with
    | some p => p.threw == [.newSize 6, .resize 0 4] && p.c.seen == [[3, 4], [3, 4], [5, 6]] && p.c.vs.map (·.size 2) == [4, 1, 20]
    | none => false) = true := by
  decide +kernel

end KTL

import Verif.Alloc.Copy
import Verif.Spec.Demo
import Verif.Props.Memory
import Verif.Props.Linear

/- C65: copies of an allocator. -/
namespace KTL

/-! ### Programs with copies -/

/-- One step of a program that uses several copies of one allocator. Indices refer to the list of copies; steps with an invalid index do
nothing. -/
inductive COp where
  /-- copy construct a new allocator from the `i`-th one -/
  | copy (i : Nat)
  /-- destroy the `i`-th copy, if there is another one. (What the destructor of `overflow` prints is not part of this machine.) -/
  | drop (i : Nat)
  /-- a step through the `i`-th copy -/
  | on (i : Nat) (o : Op)
  deriving DecidableEq, Repr

/-- the client's view (`client.st` are the fields of the copy used last), and the fields of each copy as that copy left them -/
structure Copies (A : Allocator) where
  client : Client A
  own : List A.St

def Copies.step (sys : Sys) (t : AllocTy) (c : Copies (t.denote sys)) : COp → M (Copies (t.denote sys))
  | .copy i =>
    match c.own[i]? with
    | none => pure c
    | some s => pure { c with own := c.own ++ [t.sync sys c.client.st s] }
  | .drop i => pure (if 1 < c.own.length then { c with own := c.own.eraseIdx i } else c)
  | .on i o =>
    match c.own[i]? with
    | none => pure c
    | some s => do
      let k ← Client.step sys { c.client with st := t.sync sys c.client.st s } o
      pure ⟨k, c.own.set i k.st⟩

def Copies.run (sys : Sys) (t : AllocTy) (c : Copies (t.denote sys)) : List COp → M (Copies (t.denote sys))
  | [] => pure c
  | o :: os => do
    let c' ← c.step sys t o
    c'.run sys t os

/-- Construct an allocator at address `b`, and use it and copies of it. -/
def playCopies (sys : Sys) (t : AllocTy) (b : Nat) (ops : List COp) : M (Copies (t.denote sys)) := do
  let s ← (t.denote sys).init b
  Copies.run sys t ⟨{ st := s, live := [], foreign := [] }, [s]⟩ ops

/-- the same program with a single object in place of the `n` copies -/
def single : Nat → List COp → List Op
  | _, [] => []
  | n, .copy i :: os => single (if i < n then n + 1 else n) os
  | n, .drop i :: os => single (if 1 < n ∧ i < n then n - 1 else n) os
  | n, .on i o :: os => if i < n then o :: single n os else single n os

/-! ### Proof -/

/-- same outcome, same world, related results -/
def SameM {α β} (Q : α → β → Prop) (c : M α) (d : M β) : Prop := ∀ w,
  match c w, d w with
  | .ok a w1, .ok b w2 => w1 = w2 ∧ Q a b
  | .oom w1, .oom w2 => w1 = w2
  | .ub, .ub => True
  | _, _ => False

theorem SameM.pure {α β} {Q : α → β → Prop} {a : α} {b : β} (h : Q a b) : SameM Q (Pure.pure a) (Pure.pure b) := fun _ => ⟨rfl, h⟩

theorem SameM.refl {α} (c : M α) : SameM Eq c c := by
  intro w
  cases c w <;> simp

theorem SameM.bind {α β γ δ} {Q : α → β → Prop} {R : γ → δ → Prop} {c : M α} {d : M β} {f : α → M γ} {g : β → M δ}
    (h : SameM Q c d) (hf : ∀ a b, Q a b → SameM R (f a) (g b)) : SameM R (c >>= f) (d >>= g) := by
  intro w
  have h1 := h w
  rw [M.bind_apply, M.bind_apply]
  cases hc : c w <;> cases hd : d w <;> simp only [hc, hd] at h1 ⊢
  · obtain ⟨rfl, h2⟩ := h1
    exact hf _ _ h2 _
  · exact h1

theorem SameM.ite {α β} {Q : α → β → Prop} {p : Prop} [Decidable p] {c c' : M α} {d d' : M β} (h1 : p → SameM Q c d) (h2 : ¬ p → SameM Q c' d') :
    SameM Q (if p then c else c') (if p then d else d') := by
  split
  · exact h1 ‹_›
  · exact h2 ‹_›

/-- optional members agree -/
def SameOpt {S : Type} (R : S → S → Prop) (c : Option (S → Nat → M S)) : Prop :=
  ∀ f, c = some f → ∀ s s' p, R s s' → SameM R (f s p) (f s' p)

/-- the class cannot tell states related by `R` apart -/
structure Blind (A : Allocator) (R : A.St → A.St → Prop) : Prop where
  alloc : ∀ s s' n, R s s' → SameM (fun r r' => r.1 = r'.1 ∧ R r.2 r'.2) (A.alloc s n) (A.alloc s' n)
  dealloc : ∀ s s' p n, R s s' → SameM R (A.dealloc s p n) (A.dealloc s' p n)
  construct : SameOpt R A.construct
  destroy : SameOpt R A.destroy
  owns : ∀ s s' p, R s s' → A.ownsD s p = A.ownsD s' p

theorem Blind.eq (A : Allocator) : Blind A Eq := by
  refine ⟨?_, ?_, ?_, ?_, ?_⟩
  · rintro s _ n rfl w
    cases A.alloc s n w <;> simp
  · rintro s _ p n rfl; exact SameM.refl _
  · rintro f _ s _ p rfl; exact SameM.refl _
  · rintro f _ s _ p rfl; exact SameM.refl _
  · rintro s _ p rfl; rfl

theorem blind_route2 {P F : Allocator} {R : P.St → P.St → Prop} {S : F.St → F.St → Prop} (hP : Blind P R)
    {cP : Option (P.St → Nat → M P.St)} {cF : Option (F.St → Nat → M F.St)} (h1 : SameOpt R cP) (h2 : SameOpt S cF) (ev : Nat → Ev) :
    SameOpt (fun s s' => R s.1 s'.1 ∧ S s.2 s'.2) (route2 P F cP cF ev) := by
  intro f hf s s' p hr
  unfold route2 at hf
  split at hf
  · cases hf
    simp only [hP.owns s.1 s'.1 p hr.1]
    cases hP' : P.ownsD s'.1 p <;> cases cP <;> cases cF <;> dsimp only
    all_goals first
      | exact SameM.bind (SameM.refl _) fun _ _ _ => SameM.pure hr
      | exact SameM.bind (h1 _ rfl _ _ _ hr.1) fun _ _ h => SameM.pure ⟨h, hr.2⟩
      | exact SameM.bind (h2 _ rfl _ _ _ hr.2) fun _ _ h => SameM.pure ⟨hr.1, h⟩
  · cases hf

theorem ownsD_congr {A : Allocator} {s s' : A.St} {p : Nat} (h : ∀ f, A.owns = some f → f s p = f s' p) : A.ownsD s p = A.ownsD s' p := by
  unfold Allocator.ownsD
  cases ho : A.owns with
  | none => rfl
  | some f => exact h f ho

theorem blind_owns2 {P F : Allocator} {R : P.St → P.St → Prop} {S : F.St → F.St → Prop} (hP : Blind P R) (hF : Blind F S) (s s' : P.St × F.St) (p : Nat)
    (h : R s.1 s'.1 ∧ S s.2 s'.2) : ∀ f, owns2 P F = some f → f s p = f s' p := by
  have h1 := hP.owns _ _ p h.1
  have h2 := hF.owns _ _ p h.2
  unfold Allocator.ownsD at h1 h2
  unfold owns2
  cases hp : P.owns with
  | none => intro f hf; cases hf
  | some f =>
    cases hf : F.owns with
    | none => intro f hf; cases hf
    | some g =>
      simp only [hp, hf] at h1 h2 ⊢
      intro k hk
      cases hk
      show (f s.1 p || g s.2 p) = (f s'.1 p || g s'.2 p)
      rw [h1, h2]

theorem blind_fallback {P F : Allocator} {R : P.St → P.St → Prop} {S : F.St → F.St → Prop} (hP : Blind P R) (hF : Blind F S) :
    Blind (fallback P F) (fun s s' => R s.1 s'.1 ∧ S s.2 s'.2) := by
  refine ⟨?_, ?_, blind_route2 hP hP.construct hF.construct _, blind_route2 hP hP.destroy hF.destroy _, fun s s' p h => ownsD_congr (blind_owns2 hP hF s s' p h)⟩
  · intro s s' n h
    refine SameM.bind (hP.alloc _ _ n h.1) fun r r' hr => ?_
    rw [hr.1]
    exact SameM.ite (fun _ => SameM.bind (hF.alloc _ _ n h.2) fun q q' hq => SameM.pure ⟨hq.1, hr.2, hq.2⟩) fun _ => SameM.pure ⟨rfl, hr.2, h.2⟩
  · intro s s' p n h
    show SameM _ (if P.ownsD s.1 p then _ else _) (if P.ownsD s'.1 p then _ else _)
    rw [hP.owns _ _ p h.1]
    exact SameM.ite (fun _ => SameM.bind (hP.dealloc _ _ p n h.1) fun _ _ hr => SameM.pure ⟨hr, h.2⟩)
      fun _ => SameM.bind (hF.dealloc _ _ p n h.2) fun _ _ hr => SameM.pure ⟨h.1, hr⟩

theorem blind_segragator {T : Nat} {P F : Allocator} {R : P.St → P.St → Prop} {S : F.St → F.St → Prop} (hP : Blind P R) (hF : Blind F S) :
    Blind (segragator T P F) (fun s s' => R s.1 s'.1 ∧ S s.2 s'.2) := by
  refine ⟨?_, ?_, blind_route2 hP hP.construct hF.construct _, blind_route2 hP hP.destroy hF.destroy _, fun s s' p h => ownsD_congr (blind_owns2 hP hF s s' p h)⟩
  · intro s s' n h
    exact SameM.ite (fun _ => SameM.bind (hP.alloc _ _ n h.1) fun _ _ hr => SameM.pure ⟨hr.1, hr.2, h.2⟩)
      fun _ => SameM.bind (hF.alloc _ _ n h.2) fun _ _ hr => SameM.pure ⟨hr.1, h.1, hr.2⟩
  · intro s s' p n h
    exact SameM.ite (fun _ => SameM.bind (hP.dealloc _ _ p n h.1) fun _ _ hr => SameM.pure ⟨hr, h.2⟩)
      fun _ => SameM.bind (hF.dealloc _ _ p n h.2) fun _ _ hr => SameM.pure ⟨h.1, hr⟩

theorem blind_overflow {A : Allocator} {R : A.St → A.St → Prop} (hA : Blind A R) : Blind (overflow A) (fun s s' => R s.a s'.a) := by
  refine ⟨?_, ?_, ?_, ?_, ?_⟩
  · intro s s' n h
    refine SameM.bind (hA.alloc _ _ _ h) fun r r' hr => ?_
    rw [hr.1]
    exact SameM.ite (fun _ => SameM.pure ⟨rfl, hr.2⟩) fun _ => SameM.bind (SameM.refl _) fun _ _ _ => SameM.bind (SameM.refl _) fun _ _ _ =>
      SameM.pure ⟨rfl, hr.2⟩
  · intro s s' p n h
    refine SameM.ite (fun _ => ?_) fun _ => SameM.pure h
    refine SameM.bind (SameM.refl _) fun x _ e => ?_
    subst e
    refine SameM.bind (SameM.refl _) fun y _ e => ?_
    subst e
    refine SameM.bind (SameM.refl _) fun _ _ _ => ?_
    exact SameM.bind (hA.dealloc _ _ _ _ h) fun _ _ hr => SameM.pure hr
  · intro f hf s s' p h
    cases hf
    cases hc : A.construct with
    | none => exact SameM.bind (SameM.refl _) fun _ _ _ => SameM.pure h
    | some c => exact SameM.bind (hA.construct c hc _ _ p h) fun _ _ hr => SameM.pure hr
  · intro f hf s s' p h
    cases hf
    cases hc : A.destroy with
    | none => exact SameM.bind (SameM.refl _) fun _ _ _ => SameM.pure h
    | some c => exact SameM.bind (hA.destroy c hc _ _ p h) fun _ _ hr => SameM.pure hr
  · intro s s' p h
    refine ownsD_congr fun f hf => ?_
    have := hA.owns _ _ p h
    unfold Allocator.ownsD at this
    change A.owns.map _ = some f at hf
    cases ho : A.owns with
    | none => rw [ho] at hf; cases hf
    | some g => rw [ho] at hf this; cases hf; exact this

/-- equal up to the counters of `overflow` -/
def AllocTy.like (sys : Sys) : (t : AllocTy) → (s s' : (t.denote sys).St) → Prop
  | null => Eq
  | mallocator => Eq
  | linear _ => Eq
  | stack _ => Eq
  | freelist _ _ _ => Eq
  | fallback P F => fun s s' => P.like sys s.1 s'.1 ∧ F.like sys s.2 s'.2
  | segragator _ P F => fun s s' => P.like sys s.1 s'.1 ∧ F.like sys s.2 s'.2
  | cascading _ => Eq
  | overflow A => fun s s' => A.like sys s.a s'.a
  | threaded _ => Eq
  | shared _ => Eq
  | reference _ => Eq

theorem like_blind (sys : Sys) (t : AllocTy) : Blind (t.denote sys) (t.like sys) := by
  induction t with
  | fallback P F h1 h2 => exact blind_fallback h1 h2
  | segragator T P F h1 h2 => exact blind_segragator h1 h2
  | overflow A h => exact blind_overflow h
  | _ => exact Blind.eq _

theorem sync_like (sys : Sys) (t : AllocTy) (hc : t.copyable = true) (cur own : (t.denote sys).St) : t.like sys (t.sync sys cur own) cur := by
  induction t with
  | fallback P F h1 h2 =>
    simp only [AllocTy.copyable, Bool.and_eq_true] at hc
    exact ⟨h1 hc.1 _ _, h2 hc.2 _ _⟩
  | segragator T P F h1 h2 =>
    simp only [AllocTy.copyable, Bool.and_eq_true] at hc
    exact ⟨h1 hc.1 _ _, h2 hc.2 _ _⟩
  | overflow A h => exact h hc _ _
  | linear => cases hc
  | freelist => cases hc
  | cascading => cases hc
  | threaded => cases hc
  | _ => rfl

theorem like_refl (sys : Sys) (t : AllocTy) (s : (t.denote sys).St) : t.like sys s s := by
  induction t with
  | fallback P F h1 h2 => exact ⟨h1 _, h2 _⟩
  | segragator T P F h1 h2 => exact ⟨h1 _, h2 _⟩
  | overflow A h => exact h _
  | _ => rfl

theorem like_trans (sys : Sys) (t : AllocTy) {a b c : (t.denote sys).St} (hab : t.like sys a b) (hbc : t.like sys b c) : t.like sys a c := by
  induction t with
  | fallback P F h1 h2 => exact ⟨h1 hab.1 hbc.1, h2 hab.2 hbc.2⟩
  | segragator T P F h1 h2 => exact ⟨h1 hab.1 hbc.1, h2 hab.2 hbc.2⟩
  | overflow A h => exact h hab hbc
  | _ => exact Eq.trans hab hbc

/-- same client, up to what `R` ignores -/
def SameView {A : Allocator} (R : A.St → A.St → Prop) (c d : Client A) : Prop :=
  R c.st d.st ∧ c.live = d.live ∧ c.foreign = d.foreign ∧ c.refused = d.refused ∧ c.built = d.built

/-- same client, up to the counters -/
abbrev SameClient (sys : Sys) (t : AllocTy) (c d : Client (t.denote sys)) : Prop := SameView (t.like sys) c d

theorem same_callOpt {A : Allocator} {R : A.St → A.St → Prop} {c : Option (A.St → Nat → M A.St)} (h : SameOpt R c) {s s' : A.St} (p : Nat) (hs : R s s') :
    SameM R (callOpt c s p) (callOpt c s' p) := by
  cases c with
  | none => exact SameM.pure hs
  | some f => exact h f rfl _ _ _ hs

theorem Blind.step (sys : Sys) {A : Allocator} {R : A.St → A.St → Prop} (hb : Blind A R) {c d : Client A} (h : SameView R c d) (o : Op) :
    SameM (SameView R) (c.step sys o) (d.step sys o) := by
  obtain ⟨cs, cl, cf, cr, cb⟩ := c
  obtain ⟨ds, dl, df, dr, db⟩ := d
  obtain ⟨h1, h2, h3, h4, h5⟩ := h
  dsimp only at h1 h2 h3 h4 h5
  subst h2 h3 h4 h5
  cases o with
  | allocate n =>
    refine SameM.bind (hb.alloc _ _ n h1) fun r r' hr => ?_
    rw [hr.1]
    refine SameM.ite (fun _ => SameM.pure ⟨hr.2, rfl, rfl, rfl, rfl⟩) fun _ => SameM.bind (SameM.refl _) fun x _ e => ?_
    subst e
    exact SameM.pure ⟨hr.2, rfl, rfl, rfl, rfl⟩
  | deallocate i =>
    simp only [Client.step]
    cases cl[i]? with
    | none => exact SameM.pure ⟨h1, rfl, rfl, rfl, rfl⟩
    | some x => exact SameM.bind (hb.dealloc _ _ _ _ h1) fun _ _ hr => SameM.pure ⟨hr, rfl, rfl, rfl, rfl⟩
  | write i off v =>
    simp only [Client.step]
    cases cl[i]? with
    | none => exact SameM.pure ⟨h1, rfl, rfl, rfl, rfl⟩
    | some x =>
      exact SameM.ite (fun _ => SameM.bind (SameM.refl _) fun _ _ _ => SameM.pure ⟨h1, rfl, rfl, rfl, rfl⟩) fun _ => SameM.pure ⟨h1, rfl, rfl, rfl, rfl⟩
  | construct i off =>
    simp only [Client.step]
    cases cl[i]? with
    | none => exact SameM.pure ⟨h1, rfl, rfl, rfl, rfl⟩
    | some x => exact SameM.bind (same_callOpt hb.construct _ h1) fun _ _ hr => SameM.pure ⟨hr, rfl, rfl, rfl, rfl⟩
  | destroy i off =>
    simp only [Client.step]
    cases cl[i]? with
    | none => exact SameM.pure ⟨h1, rfl, rfl, rfl, rfl⟩
    | some x => exact SameM.bind (same_callOpt hb.destroy _ h1) fun _ _ hr => SameM.pure ⟨hr, rfl, rfl, rfl, rfl⟩
  | foreign n =>
    simp only [Client.step]
    refine SameM.bind (SameM.refl _) fun p _ e => ?_
    subst e
    refine SameM.ite (fun _ => SameM.pure ⟨h1, rfl, rfl, rfl, rfl⟩) fun _ => SameM.bind (SameM.refl _) fun x _ e => ?_
    subst e
    exact SameM.pure ⟨h1, rfl, rfl, rfl, rfl⟩

theorem same_step (sys : Sys) (t : AllocTy) {c d : Client (t.denote sys)} (h : SameClient sys t c d) (o : Op) :
    SameM (SameClient sys t) (c.step sys o) (d.step sys o) := (like_blind sys t).step sys h o

theorem same_run (sys : Sys) (t : AllocTy) (hc : t.copyable = true) (ops : List COp) (c : Copies (t.denote sys)) (d : Client (t.denote sys)) (h : SameClient sys t c.client d) :
    SameM (fun c' d' => SameClient sys t c'.client d') (c.run sys t ops) (d.run sys (single c.own.length ops)) := by
  induction ops generalizing c d with
  | nil => exact SameM.pure h
  | cons o os ih =>
    cases o with
    | copy i =>
      simp only [Copies.run, Copies.step, single]
      by_cases hi : i < c.own.length
      · rw [List.getElem?_eq_getElem hi]
        simp only [hi, if_true, pure_bind]
        have := ih { c with own := c.own ++ [t.sync sys c.client.st c.own[i]] } d h
        simpa using this
      · rw [List.getElem?_eq_none (by omega)]
        simp only [hi, if_false, pure_bind]
        exact ih c d h
    | drop i =>
      simp only [Copies.run, Copies.step, single, pure_bind]
      by_cases h1 : 1 < c.own.length
      · rw [if_pos h1]
        have := ih { c with own := c.own.eraseIdx i } d h
        rw [List.length_eraseIdx] at this
        by_cases hi : i < c.own.length
        · rw [if_pos ⟨h1, hi⟩]
          rwa [if_pos hi] at this
        · rw [if_neg (fun h => hi h.2)]
          rwa [if_neg hi] at this
      · rw [if_neg h1, if_neg (fun h => h1 h.1)]
        exact ih c d h
    | on i o =>
      simp only [Copies.run, Copies.step, single]
      by_cases hi : i < c.own.length
      · rw [List.getElem?_eq_getElem hi]
        simp only [hi, if_true, bind_assoc, pure_bind]
        refine SameM.bind (same_step sys t (d := d) ?_ o) fun k k' hk => ?_
        · exact ⟨like_trans sys t (sync_like sys t hc _ _) h.1, h.2⟩
        · have := ih ⟨k, c.own.set i k.st⟩ k' hk
          simpa using this
      · rw [List.getElem?_eq_none (by omega)]
        simp only [hi, if_false, pure_bind]
        exact ih c d h

theorem same_play (sys : Sys) (t : AllocTy) (hc : t.copyable = true) (b : Nat) (ops : List COp) :
    SameM (fun c' d' => SameClient sys t c'.client d') (playCopies sys t b ops) (play sys (t.denote sys) b (single 1 ops)) := by
  refine SameM.bind (SameM.refl _) fun s _ e => ?_
  subst e
  exact same_run sys t hc ops ⟨_, [s]⟩ _ ⟨like_refl sys t s, rfl, rfl, rfl, rfl⟩

/-! ### C65 -/

/-- **C65.** A program may use any number of copies of an allocator of any copyable composition: allocate through one copy, deallocate
through another, create and destroy copies. What it observes (the blocks and their contents, the requests refused, the whole memory,
what is printed) is what it would observe with a single object. -/
theorem C65_copies_are_one (sys : Sys) (t : AllocTy) (hc : t.copyable = true) (b : Nat) (ops : List COp) :
    (do let c ← playCopies sys t b ops; pure (c.client.live, c.client.foreign, c.client.refused)) =
      (do let c ← play sys (t.denote sys) b (single 1 ops); pure (c.live, c.foreign, c.refused)) := by
  funext w
  have h := same_play sys t hc b ops w
  rw [M.bind_apply, M.bind_apply]
  cases hp : playCopies sys t b ops w <;> cases hd : play sys (t.denote sys) b (single 1 ops) w <;> simp only [hp, hd] at h ⊢
  · obtain ⟨rfl, h1, h2, h3, h4, h5⟩ := h
    rw [h2, h3, h4]
  · rw [h]

/-- **C65, safety.** So such a program has no undefined behaviour, and its blocks, whichever copies they came from, are aligned, keep
their contents and do not overlap. -/
theorem C65_copies_safe (sys : Sys) (t : AllocTy) (hwf : t.WF) (hc : t.copyable = true) (b : Nat) (w : World) (hs : Storage w b t.size) (ops : List COp)
    (hops : ∀ i n, COp.on i (.allocate n) ∈ ops → 0 < n ∧ n + t.margin < W64) :
    match playCopies sys t b ops w with
    | .ok c w' =>
      c.client.live.Pairwise (fun a d => ∀ x, ¬ ((a.1 ≤ x ∧ x < a.1 + a.2.length) ∧ (d.1 ≤ x ∧ x < d.1 + d.2.length))) ∧
      ∀ a ∈ c.client.live, a.1 ≠ 0 ∧ a.1 % 16 = 0 ∧ ∀ i (hi : i < a.2.length), w'.heap.b (a.1 + i) = some a.2[i]
    | .oom w' => w'.failed = true
    | .ub => False := by
  have hsane : Sane t (single 1 ops) := by
    have : ∀ (ops : List COp) (k : Nat), (∀ i n, COp.on i (.allocate n) ∈ ops → 0 < n ∧ n + t.margin < W64) → Sane t (single k ops) := by
      intro ops
      induction ops with
      | nil => intro k _ n h; cases h
      | cons o os ih =>
        intro k h
        have ht : ∀ i n, COp.on i (.allocate n) ∈ os → 0 < n ∧ n + t.margin < W64 := fun i n hm => h i n (List.mem_cons_of_mem _ hm)
        cases o with
        | copy i => exact ih _ ht
        | drop i => exact ih _ ht
        | on i o =>
          simp only [single]
          split
          · intro n hn
            rcases List.mem_cons.1 hn with e | hn
            · have := h i n (by rw [e]; exact List.mem_cons_self)
              exact ⟨by omega, this.1, this.2⟩
            · exact ih _ ht n hn
          · exact ih _ ht
    exact this ops 1 hops
  have h := same_play sys t hc b ops w
  have h1 := C01_no_undefined_behaviour sys t hwf b w hs _ hsane
  cases hp : playCopies sys t b ops w <;> cases hd : play sys (t.denote sys) b (single 1 ops) w <;> simp only [hp, hd] at h h1 ⊢
  case ok.ok c w1 d w2 =>
    obtain ⟨rfl, _, h2, _⟩ := h
    rw [h2]
    refine ⟨(List.pairwise_append.1 (C02_live_blocks_disjoint sys t hwf b w hs _ hsane d w1 hd).1).1, fun a ha => ?_⟩
    have h3 := C03_blocks_aligned sys t hwf b w hs _ hsane d w1 hd a ha
    exact ⟨h3.1, h3.2.1, C04_contents_preserved sys t hwf b w hs _ hsane d w1 hd a (List.mem_append.2 (.inl ha))⟩
  case oom.oom => rw [h]; exact h1

/-- **C65, the reports of `overflow` are an exception.** Each copy counts for itself: a block allocated through one copy and freed
through another leaves both with counters that their destructors report as a leak of 40 bytes and 40 bytes too many freed. -/
theorem C65_overflow_reports :
    ((playCopies (demoSys .direct) (.overflow .mallocator) 4096 [.copy 0, .on 0 (.allocate 40), .on 1 (.deallocate 0)] (demoWorld 64)).test fun c _ =>
      c.client.live.isEmpty && decide (c.own.map (fun (s : Overflow.St _) => s.allocs) = [40, -40])) = true := by
  decide +kernel

/-- **C65, why `linear_allocator` is not copyable.** Two memberwise copies hand out the same bytes twice. -/
theorem C65_uncopyable :
    ((playCopies (demoSys .direct) (.linear 256) 4096 [.copy 0, .on 0 (.allocate 40), .on 1 (.allocate 40)] (demoWorld 320)).test fun c _ =>
      decide (c.client.live.map (fun a => (a.1, a.2.length)) = [(4096, 40), (4096, 40)])) = true := by
  decide +kernel

/-! ### Non-vacuity -/

def copyTy : AllocTy := .overflow (.fallback (.segragator 64 (.stack 256) (.reference (.freelist 0 128 (.linear 512)))) (.shared (.cascading (.linear 256))))

example : copyTy.WF ∧ copyTy.copyable = true := by decide +kernel

example : ((playCopies (demoSys .direct) (.fallback (.stack 64) .mallocator) 4096
      [.copy 0, .on 0 (.allocate 40), .on 1 (.allocate 40), .on 1 (.write 0 3 7), .on 0 (.deallocate 1), .drop 0, .copy 0, .on 1 (.allocate 33)]
      (demoWorld 256)).test fun c w => decide (c.client.live.map (·.1) = [4096, 1048576]) && decide (w.heap.b 1048579 = some 7)) = true := by
  decide +kernel

end KTL

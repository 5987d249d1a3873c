import Verif.Exc.Model

/-! Proof helpers for C77. -/

namespace KTL.Exc

/-- closes the goals in order -/
local macro "exacts" "[" ts:term,* "]" : tactic => do
  let tacs ← ts.getElems.mapM fun t => `(tactic| exact $t)
  `(tactic| ($[$tacs];*))

@[simp] theorem fn_nothrow (n : Bool) (b : Ends) : (fn n b).nothrow = n := rfl
@[simp] theorem fn_throws (n : Bool) (b : Ends) : (fn n b).ends .throws ↔ n = false ∧ b .throws := Iff.rfl
@[simp] theorem fn_term (n : Bool) (b : Ends) : (fn n b).ends .terminates ↔ b .terminates ∨ (n = true ∧ b .throws) := Iff.rfl
@[simp] theorem quiet_throws : quiet .throws ↔ False := by simp [quiet]
@[simp] theorem quiet_term : quiet .terminates ↔ False := by simp [quiet]
@[simp] theorem seq_throws (a b : Ends) : seq a b .throws ↔ a .throws ∨ (a .returns ∧ b .throws) := by simp [seq]
@[simp] theorem seq_term (a b : Ends) : seq a b .terminates ↔ a .terminates ∨ (a .returns ∧ b .terminates) := by simp [seq]
@[simp] theorem alt_throws (a b : Ends) : alt a b .throws ↔ a .throws ∨ b .throws := Iff.rfl
@[simp] theorem alt_term (a b : Ends) : alt a b .terminates ↔ a .terminates ∨ b .terminates := Iff.rfl
@[simp] theorem loop_throws (a : Ends) : loop a .throws ↔ a .throws := by simp [loop]
@[simp] theorem loop_term (a : Ends) : loop a .terminates ↔ a .terminates := by simp [loop]
@[simp] theorem fn_returns (n : Bool) (b : Ends) : (fn n b).ends .returns ↔ b .returns := Iff.rfl
@[simp] theorem quiet_returns : quiet .returns ↔ True := by simp [quiet]
@[simp] theorem seq_returns (a b : Ends) : seq a b .returns ↔ a .returns ∧ b .returns := by simp [seq]
@[simp] theorem alt_returns (a b : Ends) : alt a b .returns ↔ a .returns ∨ b .returns := Iff.rfl
@[simp] theorem loop_returns (a : Ends) : loop a .returns ↔ True := by simp [loop]
@[simp] theorem plain_returns : plain.ends .returns ↔ True := by simp [plain]
@[simp] theorem plain_nothrow : plain.nothrow = true := rfl
@[simp] theorem plain_throws : plain.ends .throws ↔ False := by simp [plain]
@[simp] theorem plain_term : plain.ends .terminates ↔ False := by simp [plain]

/-- the function never terminates the program, and keeps its own promise. Proof helper, not code. -/
structure Kept (f : Fn) : Prop where
  term : ¬ f.ends .terminates
  honest : f.nothrow = true → ¬ f.ends .throws

theorem Kept.plain : Kept plain := ⟨by simp, by simp⟩

theorem Kept.fn {n : Bool} {b : Ends} (h1 : ¬ b .terminates) (h2 : n = true → ¬ b .throws) : Kept (fn n b) :=
  ⟨by rw [fn_term]; rintro (h | ⟨h, h'⟩); exacts [h1 h, h2 h h'], by rw [fn_nothrow, fn_throws]; rintro h ⟨h', _⟩; rw [h] at h'; cases h'⟩

theorem Kept.pass {f : Fn} (h : Kept f) : Kept (pass f) := Kept.fn h.term h.honest

/-- Proof helper, not code. -/
structure Inv (e : Env) (A : Cls) : Prop where
  ctor : Kept A.ctor
  move : ∀ f, A.move = some f → Kept f
  assign : ∀ f, A.assign = some f → Kept f
  dtor : Kept A.dtor
  dtorQ : ¬ A.dtor.ends .throws
  eq : Kept A.eq
  ne : Kept A.ne
  neQ : A.eq.nothrow = true → ¬ A.ne.ends .throws
  allocate : Kept A.allocate
  deallocate : Kept A.deallocate
  construct : ∀ f, A.construct = some f → Kept f ∧ (f.nothrow = true → e.nothrowMake = true) ∧ (e.nothrowMake = true → ¬ f.ends .throws)
  destroy : ∀ f, A.destroy = some f → Kept f ∧ ¬ f.ends .throws
  maxSize : ∀ f, A.maxSize = some f → Kept f
  owns : ∀ f, A.owns = some f → Kept f ∧ ¬ f.ends .throws

variable {e : Env} {A P F : Cls}

theorem Kept.both {a b : Fn} (ha : Kept a) (hb : Kept b) : Kept (both a b) := by
  refine Kept.fn ?_ ?_
  · rw [seq_term]; rintro (h | ⟨_, h⟩); exacts [ha.term h, hb.term h]
  · rw [Bool.and_eq_true, seq_throws]; rintro ⟨h1, h2⟩ (h | ⟨_, h⟩); exacts [ha.honest h1 h, hb.honest h2 h]

theorem Kept.oneOrBoth {a b : Fn} (ha : Kept a) (hb : Kept b) : Kept (oneOrBoth a b) := by
  refine Kept.fn ?_ ?_
  · simp only [seq_term, alt_term, quiet_term, false_or]; rintro (h | ⟨_, h⟩); exacts [ha.term h, hb.term h]
  · simp only [Bool.and_eq_true, seq_throws, alt_throws, quiet_throws, false_or]; rintro ⟨h1, h2⟩ (h | ⟨_, h⟩); exacts [ha.honest h1 h, hb.honest h2 h]

theorem Inv.leaf : Inv e null ∧ Inv e malloc ∧ Inv e arena := by
  refine ⟨?_, ?_, ?_⟩ <;>
  exact {
    ctor := .plain, move := fun f h => by (cases h; exact .plain), assign := fun f h => by (cases h; exact .plain), dtor := .plain
    dtorQ := by simp [null, malloc, arena], eq := .plain, ne := .plain, neQ := by simp [null, malloc, arena]
    allocate := .plain, deallocate := .plain
    construct := (fun f h => by cases h), destroy := (fun f h => by cases h)
    maxSize := fun f h => by cases h <;> exact .plain
    owns := fun f h => by cases h <;> exact ⟨.plain, by simp⟩ }

theorem Inv.passConstruct (h : Inv e A) (f : Fn) (hf : A.construct.map pass = some f) :
    Kept f ∧ (f.nothrow = true → e.nothrowMake = true) ∧ (e.nothrowMake = true → ¬ f.ends .throws) := by
  obtain ⟨g, hg, rfl⟩ := Option.map_eq_some_iff.1 hf
  obtain ⟨h1, h2, h3⟩ := h.construct g hg
  exact ⟨h1.pass, h2, fun hm ht => h3 hm ((fn_throws _ _).1 ht).2⟩

theorem Inv.passDestroy (h : Inv e A) (f : Fn) (hf : A.destroy.map pass = some f) : Kept f ∧ ¬ f.ends .throws := by
  obtain ⟨g, hg, rfl⟩ := Option.map_eq_some_iff.1 hf
  obtain ⟨h1, h2⟩ := h.destroy g hg
  exact ⟨h1.pass, fun ht => h2 ((fn_throws _ _).1 ht).2⟩

theorem Inv.passOwns (h : Inv e A) (f : Fn) (hf : A.owns.map pass = some f) : Kept f ∧ ¬ f.ends .throws := by
  obtain ⟨g, hg, rfl⟩ := Option.map_eq_some_iff.1 hf
  obtain ⟨h1, h2⟩ := h.owns g hg
  exact ⟨h1.pass, fun ht => h2 ((fn_throws _ _).1 ht).2⟩

theorem Inv.passMaxSize (h : Inv e A) (f : Fn) (hf : A.maxSize.map pass = some f) : Kept f := by
  obtain ⟨g, hg, rfl⟩ := Option.map_eq_some_iff.1 hf
  exact (h.maxSize g hg).pass

theorem Inv.eqKept (h : Inv e A) : Kept (fn A.nothrowEq A.eq.ends) := Kept.fn h.eq.term h.eq.honest
theorem Inv.neKept (h : Inv e A) : Kept (fn A.nothrowNe A.ne.ends) := Kept.fn h.ne.term h.neQ
theorem Inv.ctorKept (h : Inv e A) : Kept (fn A.nothrowCtor A.ctor.ends) :=
  Kept.fn h.ctor.term fun hn => h.ctor.honest (by unfold Cls.nothrowCtor at hn; simp at hn; exact hn.1)
theorem Inv.alignedDelete (h : Inv e A) : Kept A.alignedDelete ∧ ¬ A.alignedDelete.ends .throws :=
  ⟨Kept.fn h.dtor.term h.dtor.honest, fun ht => h.dtorQ ((fn_throws _ _).1 ht).2⟩

theorem Inv.freelist (h : Inv e A) (hq : ¬ A.deallocate.ends .throws) : Inv e (freelist A) := by
  have hr : Kept (freelistRelease A) := Kept.fn (by simpa using h.deallocate.term) (by simpa using h.deallocate.honest)
  have hrq : ¬ (freelistRelease A).ends .throws := fun ht => hq (by simpa using ((fn_throws _ _).1 ht).2)
  exact {
    ctor := h.ctorKept
    move := fun f hf => by
      obtain ⟨g, hg, rfl⟩ := Option.map_eq_some_iff.1 hf
      exact Kept.fn (h.move g hg).term fun hn => (h.move g hg).honest (by simp at hn; exact hn.1)
    assign := fun f hf => by
      obtain ⟨g, hg, rfl⟩ := Option.map_eq_some_iff.1 hf
      refine Kept.fn ?_ fun hn => ?_
      · rw [seq_term]; rintro (h' | ⟨_, h'⟩); exacts [hr.term h', (h.assign g hg).term h']
      · rw [seq_throws]; rintro (h' | ⟨_, h'⟩); exacts [hrq h', (h.assign g hg).honest hn h']
    dtor := by
      refine Kept.fn ?_ fun _ => ?_
      · rw [seq_term]; rintro (h' | ⟨_, h'⟩); exacts [hr.term h', h.dtor.term h']
      · rw [seq_throws]; rintro (h' | ⟨_, h'⟩); exacts [hrq h', h.dtorQ h']
    dtorQ := fun ht => by
      have := ((fn_throws _ _).1 ht).2
      rw [seq_throws] at this
      rcases this with h' | ⟨_, h'⟩; exacts [hrq h', h.dtorQ h']
    eq := h.eqKept
    ne := h.neKept
    neQ := fun hn ht => h.neQ hn ((fn_throws _ _).1 ht).2
    allocate := Kept.fn (by simpa using h.allocate.term) (by simpa using h.allocate.honest)
    deallocate := .plain
    construct := h.passConstruct
    destroy := h.passDestroy
    maxSize := h.passMaxSize
    owns := h.passOwns }

theorem Inv.pair (he : Kept e.make) (hu : Kept e.unmake) (huq : ¬ e.unmake.ends .throws) (hP : Inv e P) (hF : Inv e F) {al de : Fn} (hal : Kept al) (hde : Kept de) :
    Inv e (pair e P F al de) := by
  exact {
    ctor := hP.ctor.both hF.ctor
    move := fun f hf => by
      obtain ⟨p, hp, hf⟩ := Option.bind_eq_some_iff.1 hf
      obtain ⟨g, hg, rfl⟩ := Option.map_eq_some_iff.1 hf
      exact (hP.move p hp).both (hF.move g hg)
    assign := fun f hf => by
      obtain ⟨p, hp, hf⟩ := Option.bind_eq_some_iff.1 hf
      obtain ⟨g, hg, rfl⟩ := Option.map_eq_some_iff.1 hf
      exact (hP.assign p hp).both (hF.assign g hg)
    dtor := hF.dtor.both hP.dtor
    dtorQ := fun ht => by
      have := ((fn_throws _ _).1 ht).2
      rw [seq_throws] at this
      rcases this with h' | ⟨_, h'⟩; exacts [hF.dtorQ h', hP.dtorQ h']
    eq := by
      refine Kept.fn ?_ ?_
      · simp only [seq_term, alt_term, quiet_term, false_or]; rintro (h | ⟨_, h⟩); exacts [hP.eq.term h, hF.eq.term h]
      · simp only [Bool.and_eq_true, seq_throws, alt_throws, quiet_throws, false_or]; rintro ⟨h1, h2⟩ (h | ⟨_, h⟩); exacts [hP.eq.honest h1 h, hF.eq.honest h2 h]
    ne := by
      refine Kept.fn ?_ ?_
      · simp only [seq_term, alt_term, quiet_term, false_or]; rintro (h | ⟨_, h⟩); exacts [hP.ne.term h, hF.ne.term h]
      · simp only [Bool.and_eq_true, seq_throws, alt_throws, quiet_throws, false_or]; rintro ⟨h1, h2⟩ (h | ⟨_, h⟩); exacts [hP.neQ h1 h, hF.neQ h2 h]
    neQ := fun hn ht => by
      have := ((fn_throws _ _).1 ht).2
      have hn' : P.eq.nothrow = true ∧ F.eq.nothrow = true := by
        have : (P.nothrowEq && F.nothrowEq) = true := hn
        rw [Bool.and_eq_true] at this; exact this
      simp only [seq_throws, alt_throws, quiet_throws, false_or] at this
      rcases this with h' | ⟨_, h'⟩; exacts [hP.neQ hn'.1 h', hF.neQ hn'.2 h']
    allocate := hal
    deallocate := hde
    construct := fun f hf => by
      obtain ⟨o, ho, hf⟩ := Option.bind_eq_some_iff.1 hf
      have hO := hP.owns o ho
      unfold routed at hf
      split at hf
      · cases hf
      · obtain rfl := Option.some.inj hf
        cases hp : P.construct with
        | none =>
          cases hg : F.construct with
          | none =>
            have hm : e.nothrowMake = true → ¬ e.make.ends .throws := fun hm => he.honest (by unfold Env.nothrowMake at hm; simp at hm; exact hm.1)
            simp_all
          | some g =>
            have hm : e.nothrowMake = true → ¬ e.make.ends .throws := fun hm => he.honest (by unfold Env.nothrowMake at hm; simp at hm; exact hm.1)
            obtain ⟨g1, g2, g3⟩ := hF.construct g hg
            refine ⟨Kept.fn ?_ ?_, ?_, ?_⟩
            · simp only [seq_term, alt_term]; rintro (h | ⟨_, h | h⟩); exacts [hO.1.term h, he.term h, g1.term h]
            · simp only [noneOrNothrow, Bool.and_eq_true, seq_throws, alt_throws]
              rintro ⟨_, h1⟩ (h | ⟨_, h | h⟩); exacts [hO.2 h, hm h1 h, g3 h1 h]
            · simp only [fn_nothrow, Bool.and_eq_true]; exact fun h => h.2
            · simp only [fn_throws, seq_throws, alt_throws]
              rintro h1 ⟨_, h | ⟨_, h | h⟩⟩; exacts [hO.2 h, hm h1 h, g3 h1 h]
        | some p =>
          obtain ⟨p1, p2, p3⟩ := hP.construct p hp
          have hm : e.nothrowMake = true → ¬ e.make.ends .throws := fun hm => he.honest (by unfold Env.nothrowMake at hm; simp at hm; exact hm.1)
          cases hg : F.construct with
          | none =>
            refine ⟨Kept.fn ?_ ?_, ?_, ?_⟩
            · simp only [seq_term, alt_term]; rintro (h | ⟨_, h | h⟩); exacts [hO.1.term h, p1.term h, he.term h]
            · simp only [noneOrNothrow, Bool.and_eq_true, seq_throws, alt_throws]
              rintro ⟨_, h1⟩ (h | ⟨_, h | h⟩); exacts [hO.2 h, p3 h1 h, hm h1 h]
            · simp only [fn_nothrow, Bool.and_eq_true]; exact fun h => h.2
            · simp only [fn_throws, seq_throws, alt_throws]
              rintro h1 ⟨_, h | ⟨_, h | h⟩⟩; exacts [hO.2 h, p3 h1 h, hm h1 h]
          | some g =>
            obtain ⟨g1, g2, g3⟩ := hF.construct g hg
            refine ⟨Kept.fn ?_ ?_, ?_, ?_⟩
            · simp only [seq_term, alt_term]; rintro (h | ⟨_, h | h⟩); exacts [hO.1.term h, p1.term h, g1.term h]
            · simp only [noneOrNothrow, Bool.and_eq_true, seq_throws, alt_throws]
              rintro ⟨_, h1⟩ (h | ⟨_, h | h⟩); exacts [hO.2 h, p3 h1 h, g3 h1 h]
            · simp only [fn_nothrow, Bool.and_eq_true]; exact fun h => h.2
            · simp only [fn_throws, seq_throws, alt_throws]
              rintro h1 ⟨_, h | ⟨_, h | h⟩⟩; exacts [hO.2 h, p3 h1 h, g3 h1 h]
    destroy := fun f hf => by
      obtain ⟨o, ho, hf⟩ := Option.bind_eq_some_iff.1 hf
      have hO := hP.owns o ho
      unfold routed at hf
      split at hf
      · cases hf
      · obtain rfl := Option.some.inj hf
        have key : ∀ q : Option Fn, (∀ f, q = some f → Kept f ∧ ¬ f.ends .throws) →
            ¬ (match q with | some p => p.ends | none => e.unmake.ends) .terminates ∧ ¬ (match q with | some p => p.ends | none => e.unmake.ends) .throws := by
          intro q hq
          cases q with
          | none => exact ⟨hu.term, huq⟩
          | some q => exact ⟨(hq q rfl).1.term, (hq q rfl).2⟩
        obtain ⟨a1, a2⟩ := key _ hP.destroy
        obtain ⟨b1, b2⟩ := key _ hF.destroy
        refine ⟨Kept.fn ?_ ?_, ?_⟩
        · rw [seq_term, alt_term]; rintro (h | ⟨_, h | h⟩); exacts [hO.1.term h, a1 h, b1 h]
        · rw [seq_throws, alt_throws]; rintro _ (h | ⟨_, h | h⟩); exacts [hO.2 h, a2 h, b2 h]
        · rw [fn_throws, seq_throws, alt_throws]; rintro ⟨_, h | ⟨_, h | h⟩⟩; exacts [hO.2 h, a2 h, b2 h]
    maxSize := fun f hf => by
      obtain ⟨p, hp, hf⟩ := Option.bind_eq_some_iff.1 hf
      obtain ⟨g, hg, rfl⟩ := Option.map_eq_some_iff.1 hf
      exact (hP.maxSize p hp).both (hF.maxSize g hg)
    owns := fun f hf => by
      obtain ⟨p, hp, hf⟩ := Option.bind_eq_some_iff.1 hf
      obtain ⟨g, hg, rfl⟩ := Option.map_eq_some_iff.1 hf
      have h1 := hP.owns p hp
      have h2 := hF.owns g hg
      refine ⟨h1.1.oneOrBoth h2.1, fun ht => ?_⟩
      have := ((fn_throws _ _).1 ht).2
      simp only [seq_throws, alt_throws, quiet_throws, false_or] at this
      rcases this with h' | ⟨_, h'⟩; exacts [h1.2 h', h2.2 h'] }

theorem Inv.callOwns (h : Inv e A) : ¬ callIf A.owns .terminates ∧ ¬ callIf A.owns .throws := by
  cases ho : A.owns with
  | none => exact ⟨by simp [callIf], by simp [callIf]⟩
  | some o => exact ⟨(h.owns o ho).1.term, (h.owns o ho).2⟩

theorem Inv.fallback (he : Kept e.make) (hu : Kept e.unmake) (huq : ¬ e.unmake.ends .throws) (hP : Inv e P) (hF : Inv e F) : Inv e (fallback e P F) := by
  refine Inv.pair he hu huq hP hF (Kept.fn ?_ ?_) (Kept.fn ?_ ?_)
  · simp only [seq_term, alt_term, quiet_term, false_or]; rintro (h | ⟨_, h⟩); exacts [hP.allocate.term h, hF.allocate.term h]
  · simp only [Bool.and_eq_true, seq_throws, alt_throws, quiet_throws, false_or]; rintro ⟨h1, h2⟩ (h | ⟨_, h⟩); exacts [hP.allocate.honest h1 h, hF.allocate.honest h2 h]
  · rw [seq_term, alt_term]; rintro (h | ⟨_, h | h⟩); exacts [hP.callOwns.1 h, hP.deallocate.term h, hF.deallocate.term h]
  · rw [Bool.and_eq_true, seq_throws, alt_throws]; rintro ⟨h1, h2⟩ (h | ⟨_, h | h⟩)
    exacts [hP.callOwns.2 h, hP.deallocate.honest h1 h, hF.deallocate.honest h2 h]

theorem Inv.segragator (he : Kept e.make) (hu : Kept e.unmake) (huq : ¬ e.unmake.ends .throws) (hP : Inv e P) (hF : Inv e F) : Inv e (segragator e P F) := by
  refine Inv.pair he hu huq hP hF (Kept.fn ?_ ?_) (Kept.fn ?_ ?_)
  · rw [alt_term]; rintro (h | h); exacts [hP.allocate.term h, hF.allocate.term h]
  · rw [Bool.and_eq_true, alt_throws]; rintro ⟨h1, h2⟩ (h | h); exacts [hP.allocate.honest h1 h, hF.allocate.honest h2 h]
  · rw [alt_term]; rintro (h | h); exacts [hP.deallocate.term h, hF.deallocate.term h]
  · rw [Bool.and_eq_true, alt_throws]; rintro ⟨h1, h2⟩ (h | h); exacts [hP.deallocate.honest h1 h, hF.deallocate.honest h2 h]

theorem Inv.cascading (he : Kept e.make) (hu : Kept e.unmake) (huq : ¬ e.unmake.ends .throws) (h : Inv e A) : Inv e (cascading e A) := by
  have hm : e.nothrowMake = true → ¬ e.make.ends .throws := fun hm => he.honest (by unfold Env.nothrowMake at hm; simp at hm; exact hm.1)
  have hd := h.alignedDelete
  have hr : Kept (cascadingRelease A) := Kept.fn (by simpa using hd.1.term) (by simpa using fun _ => hd.2)
  have hrq : ¬ (cascadingRelease A).ends .throws := fun ht => hd.2 (by simpa using ((fn_throws _ _).1 ht).2)
  have hn : Kept A.alignedNew := h.ctorKept
  have ho := h.callOwns
  exact {
    ctor := .plain
    move := fun f hf => by cases hf; exact Kept.fn (by simp) (by simp)
    assign := fun f hf => by cases hf; exact Kept.fn hr.term fun _ => hrq
    dtor := Kept.fn hr.term fun _ => hrq
    dtorQ := fun ht => hrq ((fn_throws _ _).1 ht).2
    eq := .plain
    ne := .plain
    neQ := fun _ => plain_throws.1
    allocate := by
      have hmt : ¬ callIf A.maxSize .terminates := by
        cases hx : A.maxSize with
        | none => simp [callIf]
        | some g => exact (h.maxSize g hx).term
      have hmq : noneOrNothrow A.maxSize = true → ¬ callIf A.maxSize .throws := by
        cases hx : A.maxSize with
        | none => simp [callIf]
        | some g => exact (h.maxSize g hx).honest
      refine Kept.fn ?_ ?_
      · simp only [seq_term, alt_term, quiet_term, false_or]
        rintro (h' | ⟨_, h' | ⟨_, h' | ⟨_, h' | ⟨_, h'⟩⟩⟩⟩)
        exacts [hn.term h', hmt h', h.allocate.term h', hn.term h', h.allocate.term h']
      · simp only [Bool.and_eq_true, seq_throws, alt_throws, quiet_throws, false_or]
        rintro ⟨⟨n1, n2⟩, n3⟩ (h' | ⟨_, h' | ⟨_, h' | ⟨_, h' | ⟨_, h'⟩⟩⟩⟩)
        exacts [hn.honest n1 h', hmq n3 h', h.allocate.honest n2 h', hn.honest n1 h', h.allocate.honest n2 h']
    deallocate := by
      refine Kept.fn ?_ ?_
      · simp only [seq_term, alt_term, quiet_term, loop_term, false_or]
        rintro (h' | ⟨_, h' | ⟨_, h'⟩⟩)
        exacts [ho.1 h', h.deallocate.term h', hd.1.term h']
      · simp only [Bool.and_eq_true, seq_throws, alt_throws, quiet_throws, loop_throws, false_or]
        rintro ⟨_, n2⟩ (h' | ⟨_, h' | ⟨_, h'⟩⟩)
        exacts [ho.2 h', h.deallocate.honest n2 h', hd.2 h']
    construct := fun f hf => by
      obtain ⟨g, hg, rfl⟩ := Option.map_eq_some_iff.1 hf
      obtain ⟨g1, g2, g3⟩ := h.construct g hg
      refine ⟨Kept.fn ?_ ?_, ?_, ?_⟩
      · simp only [seq_term, alt_term, loop_term]; rintro (h' | ⟨_, h' | h'⟩); exacts [ho.1 h', g1.term h', he.term h']
      · simp only [Bool.and_eq_true, seq_throws, alt_throws, loop_throws]
        rintro ⟨_, n2⟩ (h' | ⟨_, h' | h'⟩); exacts [ho.2 h', g1.honest n2 h', hm (g2 n2) h']
      · simp only [fn_nothrow, Bool.and_eq_true]; exact fun n => g2 n.2
      · simp only [fn_throws, seq_throws, alt_throws, loop_throws]
        rintro n ⟨_, h' | ⟨_, h' | h'⟩⟩; exacts [ho.2 h', g3 n h', hm n h']
    destroy := fun f hf => by
      obtain ⟨g, hg, rfl⟩ := Option.map_eq_some_iff.1 hf
      obtain ⟨g1, g2⟩ := h.destroy g hg
      refine ⟨Kept.fn ?_ ?_, ?_⟩
      · simp only [seq_term, alt_term, loop_term]; rintro (h' | ⟨_, h' | h'⟩); exacts [ho.1 h', g1.term h', hu.term h']
      · simp only [seq_throws, alt_throws, loop_throws]
        rintro _ (h' | ⟨_, h' | h'⟩); exacts [ho.2 h', g2 h', huq h']
      · simp only [fn_throws, seq_throws, alt_throws, loop_throws]
        rintro ⟨_, h' | ⟨_, h' | h'⟩⟩; exacts [ho.2 h', g2 h', huq h']
    maxSize := h.passMaxSize
    owns := fun f hf => by
      cases hf
      exact ⟨Kept.fn (by simpa using ho.1) (by simpa using fun _ => ho.2), fun ht => ho.2 (by simpa using ((fn_throws _ _).1 ht).2)⟩ }

theorem Inv.overflow (he : Kept e.make) (hu : Kept e.unmake) (huq : ¬ e.unmake.ends .throws) (hs1 : ¬ e.stream .terminates) (hs2 : ¬ e.stream .throws)
    (h : Inv e A) : Inv e (overflow e A) := by
  have hm : e.nothrowMake = true → ¬ e.make.ends .throws := fun hm => he.honest (by unfold Env.nothrowMake at hm; simp at hm; exact hm.1)
  exact {
    ctor := h.ctorKept
    move := fun f hf => by
      obtain ⟨g, hg, rfl⟩ := Option.map_eq_some_iff.1 hf
      exact (h.move g hg).pass
    assign := fun f hf => by cases hf
    dtor := by
      refine Kept.fn ?_ fun _ => ?_
      · simp only [seq_term, alt_term, quiet_term, false_or]; rintro (h' | ⟨_, h'⟩); exacts [hs1 h', h.dtor.term h']
      · simp only [seq_throws, alt_throws, quiet_throws, false_or]; rintro (h' | ⟨_, h'⟩); exacts [hs2 h', h.dtorQ h']
    dtorQ := fun ht => by
      have := ((fn_throws _ _).1 ht).2
      simp only [seq_throws, alt_throws, quiet_throws, false_or] at this
      rcases this with h' | ⟨_, h'⟩; exacts [hs2 h', h.dtorQ h']
    eq := h.eqKept
    ne := h.neKept
    neQ := fun hn ht => h.neQ hn ((fn_throws _ _).1 ht).2
    allocate := h.allocate.pass
    deallocate := by
      refine Kept.fn ?_ fun n => ?_
      · simp only [seq_term, alt_term, quiet_term, false_or]; rintro (h' | ⟨_, h'⟩); exacts [hs1 h', h.deallocate.term h']
      · simp only [seq_throws, alt_throws, quiet_throws, false_or]; rintro (h' | ⟨_, h'⟩); exacts [hs2 h', h.deallocate.honest n h']
    construct := fun f hf => by
      obtain rfl := Option.some.inj hf
      cases hc : A.construct with
      | none =>
        refine ⟨Kept.fn he.term fun n => hm (by simpa [hasNothrow] using n), fun n => by simpa [hasNothrow] using n, fun n ht => hm n ((fn_throws _ _).1 ht).2⟩
      | some c =>
        obtain ⟨g1, g2, g3⟩ := h.construct c hc
        have hn : (hasNothrow (some c) || e.nothrowMake) = true → e.nothrowMake = true := fun n => by
          rw [Bool.or_eq_true] at n
          exact n.elim g2 id
        exact ⟨Kept.fn g1.term fun n => g3 (hn n), hn, fun n ht => g3 n ((fn_throws _ _).1 ht).2⟩
    destroy := fun f hf => by
      obtain rfl := Option.some.inj hf
      cases hc : A.destroy with
      | none => exact ⟨Kept.fn hu.term fun _ => huq, fun ht => huq ((fn_throws _ _).1 ht).2⟩
      | some c => exact ⟨Kept.fn (h.destroy c hc).1.term fun _ => (h.destroy c hc).2, fun ht => (h.destroy c hc).2 ((fn_throws _ _).1 ht).2⟩
    maxSize := h.passMaxSize
    owns := h.passOwns }

theorem Inv.threaded (hl : ¬ e.lock .terminates) (h : Inv e A) : Inv e (threaded e A) := by
  exact {
    ctor := h.ctorKept
    move := fun f hf => by cases hf
    assign := fun f hf => by cases hf
    dtor := h.dtor.pass
    dtorQ := fun ht => h.dtorQ ((fn_throws _ _).1 ht).2
    eq := h.eqKept
    ne := h.neKept
    neQ := fun hn ht => h.neQ hn ((fn_throws _ _).1 ht).2
    allocate := by
      refine Kept.fn ?_ (fun n => by cases n)
      rw [seq_term]; rintro (h' | ⟨_, h'⟩); exacts [hl h', h.allocate.term h']
    deallocate := by
      refine Kept.fn ?_ (fun n => by cases n)
      rw [seq_term]; rintro (h' | ⟨_, h'⟩); exacts [hl h', h.deallocate.term h']
    construct := h.passConstruct
    destroy := h.passDestroy
    maxSize := h.passMaxSize
    owns := h.passOwns }

theorem Inv.reference (h : Inv e A) : Inv e (reference A) := by
  exact {
    ctor := .plain
    move := fun f hf => by cases hf; exact .plain
    assign := fun f hf => by cases hf; exact .plain
    dtor := .plain
    dtorQ := plain_throws.1
    eq := Kept.fn (by simpa using h.eq.term) (by simpa [Cls.nothrowEq] using h.eq.honest)
    ne := Kept.fn (by simpa using h.ne.term) (by simpa [Cls.nothrowNe] using h.neQ)
    neQ := fun hn ht => h.neQ hn (by simpa using ((fn_throws _ _).1 ht).2)
    allocate := h.allocate.pass
    deallocate := h.deallocate.pass
    construct := h.passConstruct
    destroy := h.passDestroy
    maxSize := h.passMaxSize
    owns := h.passOwns }

theorem Inv.shared (h : Inv e A) : Inv e (shared A) := by
  have hd := h.alignedDelete
  have hr : Kept (sharedDecrement A) := Kept.fn (by simpa using hd.1.term) (by simpa using fun _ => hd.2)
  have hrq : ¬ (sharedDecrement A).ends .throws := fun ht => hd.2 (by simpa using ((fn_throws _ _).1 ht).2)
  have hn : Kept A.alignedNew := h.ctorKept
  exact { h.reference with
    ctor := Kept.fn hn.term hn.honest
    move := fun f hf => by cases hf; exact .plain
    assign := fun f hf => by cases hf; exact Kept.fn hr.term fun _ => hrq
    dtor := Kept.fn hr.term fun _ => hrq
    dtorQ := fun ht => hrq ((fn_throws _ _).1 ht).2 }

theorem Inv.global (h : Inv e A) : Inv e (global A) :=
  { h.reference with
    eq := Kept.fn (by simp) (by simp)
    ne := Kept.fn (by simp) (by simp)
    neQ := fun hn => by cases hn }

end KTL.Exc

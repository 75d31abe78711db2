import Verif.Model.MeshVerify
/-
A small program logic for the verify functions of blueprint meshes.
-/
namespace Conduit.Mesh
open Log (Info)

/-- The name of the verdict in a report. -/
abbrev vkey : Str := chars! "valid"
/-- How a verdict is written. -/
def tf (b : Bool) : Str := if b then chars! "true" else chars! "false"

theorem find_put_self (n : Str) (f : Info → Info) (es : List (Str × Info)) :
    ((Log.putEntry n f es).find? (·.1 == n)).map (·.2) =
      some (f (((es.find? (·.1 == n)).map (·.2)).getD .empty)) := by
  induction es with
  | nil => simp [Log.putEntry]
  | cons e es ih =>
    obtain ⟨k, c⟩ := e
    by_cases h : k = n
    · simp [Log.putEntry, h]
    · simp [Log.putEntry, h]; simpa using ih

theorem find_put_ne (n m : Str) (hm : m ≠ n) (f : Info → Info) (es : List (Str × Info)) :
    ((Log.putEntry n f es).find? (·.1 == m)).map (·.2) = (es.find? (·.1 == m)).map (·.2) := by
  induction es with
  | nil => simp [Log.putEntry, Ne.symm hm]
  | cons e es ih =>
    obtain ⟨k, c⟩ := e
    by_cases h : k = n
    · subst h; simp [Log.putEntry, Ne.symm hm]
    · by_cases h2 : k = m
      · subst h2; simp [Log.putEntry, h]
      · simp [Log.putEntry, h, h2]; simpa using ih

theorem child_update_self (t : Info) (n : Str) (f : Info → Info) :
    (t.update n f).child? n = some (f ((t.child? n).getD .empty)) := by
  cases t <;> simp [Log.Info.update, Log.Info.child?]
  case obj es => simpa using find_put_self n f es
  all_goals simp [Log.putEntry]

theorem child_update_ne (t : Info) (n m : Str) (hm : m ≠ n) (f : Info → Info) :
    (t.update n f).child? m = t.child? m := by
  cases t <;> simp [Log.Info.update, Log.Info.child?]
  case obj es => simpa using find_put_ne n m hm f es
  all_goals simp [Log.putEntry, Ne.symm hm]

/-- Every verdict in a report is a string. -/
def Clean : Info → Prop
  | .obj es => cleanO es
  | _ => True
where
  cleanO : List (Str × Info) → Prop
    | [] => True
    | e :: es => (e.1 = vkey → ∃ s, e.2 = .str s) ∧ Clean e.2 ∧ cleanO es

theorem Clean.child {t c : Info} {n : Str} (h : Clean t) (hc : t.child? n = some c) :
    Clean c ∧ (n = vkey → ∃ s, c = .str s) := by
  cases t with
  | obj es =>
    simp only [Log.Info.child?, Option.map_eq_some_iff] at hc
    simp only [Clean] at h
    induction es with
    | nil => simp at hc
    | cons e es ih =>
      obtain ⟨hv, hcl, hr⟩ := h
      by_cases hk : e.1 = n
      · simp [hk] at hc
        subst hc
        exact ⟨hcl, fun hn => hv (hk.trans hn)⟩
      · rw [List.find?_cons_of_neg (by simpa using hk)] at hc
        exact ih hr hc
  | _ => simp [Log.Info.child?] at hc

theorem Clean.getD {t : Info} {n : Str} (h : Clean t) : Clean ((t.child? n).getD .empty) := by
  cases hc : t.child? n with
  | none => simp [Clean]
  | some c => exact (h.child hc).1

theorem Clean.update {t : Info} {n : Str} {f : Info → Info} (h : Clean t)
    (hf : Clean (f ((t.child? n).getD .empty)))
    (hv : n = vkey → ∃ s, f ((t.child? n).getD .empty) = .str s) : Clean (t.update n f) := by
  cases t with
  | obj es =>
    simp only [Log.Info.update, Clean, Log.Info.child?] at *
    induction es with
    | nil => simp [Log.putEntry, Clean.cleanO] at *; exact ⟨hv, hf⟩
    | cons e es ih =>
      obtain ⟨k, c⟩ := e
      obtain ⟨h1, h2, h3⟩ := h
      by_cases hk : k = n
      · simp [hk] at hf hv
        subst hk
        simp only [Log.putEntry, if_true]
        exact ⟨hv, hf, h3⟩
      · simp [hk] at hf hv
        simp only [Log.putEntry, hk, if_false]
        exact ⟨h1, h2, ih h3 (by simpa using hf) (by simpa using hv)⟩
  | _ =>
    simp [Log.Info.update, Log.putEntry, Clean, Clean.cleanO, Log.Info.child?] at *
    exact ⟨hv, hf⟩

/-- The verdict of a report: valid as long as nothing else is written. -/
def verdict (t : Info) : Bool :=
  match t.child? vkey with
  | some (.str s) => s == chars! "true"
  | _ => true

/-- The verdict `b` is written in the report. -/
def Marked (t : Info) (b : Bool) : Prop := t.child? vkey = some (.str (tf b))

theorem Marked.verdict {t : Info} {b : Bool} (h : Marked t b) : verdict t = b := by
  unfold Mesh.verdict; rw [h]; cases b <;> decide

theorem validation_ok {t : Info} {b : Bool} {t' : Info} (h : Log.validation t b = .ok t') :
    Marked t' (verdict t && b) ∧ ∀ m, m ≠ vkey → t'.child? m = t.child? m := by
  unfold Log.validation at h
  obtain ⟨v, hv, ht⟩ := Res.bind_eq_ok.1 h
  injection ht with ht
  subst ht
  have e : v = verdict t := by
    unfold verdict
    cases hc : t.child? vkey with
    | none => rw [hc] at hv; simpa using hv.symm
    | some c =>
      rw [hc] at hv
      cases c <;> simp at hv ⊢
      exact hv.symm
  refine ⟨?_, fun m hm => child_update_ne _ _ _ hm _⟩
  unfold Marked
  rw [child_update_self, e]
  cases b <;> cases verdict t <;> rfl

theorem validation_total {t : Info} (h : Clean t) (b : Bool) :
    ∃ t', Log.validation t b = .ok t' ∧ Clean t' := by
  unfold Log.validation
  have key : ∀ c : Info, Clean (.str (if b && true then chars! "true" else chars! "false")) := fun _ => trivial
  cases hc : t.child? (chars! "valid") with
  | none => exact ⟨_, rfl, h.update trivial fun _ => ⟨_, rfl⟩⟩
  | some c =>
    obtain ⟨s, rfl⟩ := (h.child hc).2 rfl
    exact ⟨_, rfl, h.update trivial fun _ => ⟨_, rfl⟩⟩

/-- From a report in state `P`, a call that returns leaves a result and a report in state `Q`; when
    `s` holds and all verdicts are strings, it returns. -/
def Does {α : Type} (act : V α) (s : Prop) (P : Info → Prop) (Q : α → Info → Prop) : Prop :=
  ∀ t, P t → (∀ a t', act t = .ok (a, t') → Q a t') ∧
    (s → Clean t → ∃ a t', act t = .ok (a, t') ∧ Clean t')

section
variable {α β : Type} {s : Prop} {P : Info → Prop} {Q : α → Info → Prop}

theorem Does.bind {act : V α} {f : α → V β} {R : β → Info → Prop} (h : Does act s P Q)
    (hf : ∀ a, Does (f a) s (Q a) R) : Does (act >>= f) s P R := by
  intro t ht
  constructor
  · intro b t' hb
    obtain ⟨⟨a, t1⟩, h1, h2⟩ := Res.bind_eq_ok.1 (show (act t >>= fun r => f r.1 r.2) = .ok (b, t') from hb)
    exact ((hf a) t1 ((h t ht).1 a t1 h1)).1 b t' h2
  · intro hs hc
    obtain ⟨a, t1, h1, c1⟩ := (h t ht).2 hs hc
    obtain ⟨b, t2, h2, c2⟩ := ((hf a) t1 ((h t ht).1 a t1 h1)).2 hs c1
    refine ⟨b, t2, ?_, c2⟩
    show (act t >>= fun r => f r.1 r.2) = .ok (b, t2)
    rw [h1]; exact h2

theorem Does.pure (a : α) (h : ∀ t, P t → Q a t) : Does (pure a : V α) s P Q := by
  intro t ht
  refine ⟨fun b t' hb => ?_, fun _ hc => ⟨a, t, rfl, hc⟩⟩
  have : Res.ok (a, t) = Res.ok (b, t') := hb
  injection this with this
  obtain ⟨rfl, rfl⟩ := Prod.mk.inj this
  exact h t ht

theorem Does.conseq {act : V α} {P' : Info → Prop} {Q' : α → Info → Prop} (h : Does act s P Q)
    (hp : ∀ t, P' t → P t) (hq : ∀ a t, Q a t → Q' a t) : Does act s P' Q' :=
  fun t ht => ⟨fun a t' e => hq a t' ((h t (hp t ht)).1 a t' e), (h t (hp t ht)).2⟩

theorem Does.weaken {act : V α} {s' : Prop} (h : Does act s P Q) (hs : s' → s) : Does act s' P Q :=
  fun t ht => ⟨(h t ht).1, fun x => (h t ht).2 (hs x)⟩

theorem Does.pull {act : V α} {φ : Prop} (h : φ → Does act s P Q) : Does act s (fun t => φ ∧ P t) Q :=
  fun t ht => h ht.1 t ht.2

theorem Does.lift (r : Res α) (hs : s → ∃ a, r = .ok a) :
    Does (V.lift r) s P (fun a t => r = .ok a ∧ P t) := by
  intro t ht
  constructor
  · intro a t' h
    cases r with
    | ok x =>
      have : Res.ok (x, t) = Res.ok (a, t') := h
      injection this with this
      obtain ⟨rfl, rfl⟩ := Prod.mk.inj this
      exact ⟨rfl, ht⟩
    | error => exact absurd h (by simp [V.lift])
    | ub => exact absurd h (by simp [V.lift])
  · intro h hc
    obtain ⟨a, rfl⟩ := hs h
    exact ⟨a, t, rfl, hc⟩
end

/-- The verdict so far is `v`. -/
def W (v : Bool) (t : Info) : Prop := verdict t = v

/-- A check that leaves the verdict of the report alone. -/
def Keeps (act : V Bool) (s φ : Prop) : Prop :=
  ∀ v, Does act s (W v) fun b t => (b = true ↔ φ) ∧ W v t
/-- A check that joins its verdict to that of the report. -/
def Joins (act : V Bool) (s φ : Prop) : Prop :=
  ∀ v, Does act s (W v) fun b t => (b = true ↔ φ) ∧ W (v && b) t
/-- A check that writes its verdict to the report. -/
def Verifies (act : V Bool) (s φ : Prop) : Prop :=
  Does act s (fun _ => True) fun b t => (b = true ↔ φ) ∧ Marked t b
/-- A check that returns its verdict. -/
def Decides (act : V Bool) (s φ : Prop) : Prop :=
  Does act s (fun _ => True) fun b _ => (b = true ↔ φ)

variable {s φ ψ : Prop}

theorem Keeps.decides {act : V Bool} (h : Keeps act s φ) : Decides act s φ :=
  fun t _ => ⟨fun a t' e => ((h (verdict t) t rfl).1 a t' e).1, (h (verdict t) t rfl).2⟩
theorem Joins.decides {act : V Bool} (h : Joins act s φ) : Decides act s φ :=
  fun t _ => ⟨fun a t' e => ((h (verdict t) t rfl).1 a t' e).1, (h (verdict t) t rfl).2⟩
theorem Verifies.decides {act : V Bool} (h : Verifies act s φ) : Decides act s φ :=
  h.conseq (fun _ => id) fun _ _ x => x.1

theorem Keeps.iff {act : V Bool} (h : Keeps act s φ) (e : φ ↔ ψ) : Keeps act s ψ := by rwa [← propext e]
theorem Joins.iff {act : V Bool} (h : Joins act s φ) (e : φ ↔ ψ) : Joins act s ψ := by rwa [← propext e]
theorem Verifies.iff {act : V Bool} (h : Verifies act s φ) (e : φ ↔ ψ) : Verifies act s ψ := by rwa [← propext e]
theorem Decides.iff {act : V Bool} (h : Decides act s φ) (e : φ ↔ ψ) : Decides act s ψ := by rwa [← propext e]
theorem Keeps.weaken {act : V Bool} {s' : Prop} (h : Keeps act s φ) (e : s' → s) : Keeps act s' φ :=
  fun v => (h v).weaken e
theorem Joins.weaken {act : V Bool} {s' : Prop} (h : Joins act s φ) (e : s' → s) : Joins act s' φ :=
  fun v => (h v).weaken e
theorem Verifies.weaken {act : V Bool} {s' : Prop} (h : Verifies act s φ) (e : s' → s) : Verifies act s' φ :=
  Does.weaken h e
theorem Decides.weaken {act : V Bool} {s' : Prop} (h : Decides act s φ) (e : s' → s) : Decides act s' φ :=
  Does.weaken h e

theorem Keeps.seq {act : V Bool} {β : Type} {f : Bool → V β} {v : Bool} {R : β → Info → Prop} (h : Keeps act s φ)
    (hf : ∀ r, (r = true ↔ φ) → Does (f r) s (W v) R) : Does (act >>= f) s (W v) R :=
  (h v).bind fun a => Does.pull (hf a)

theorem Joins.seq {act : V Bool} {β : Type} {f : Bool → V β} {v : Bool} {R : β → Info → Prop} (h : Joins act s φ)
    (hf : ∀ r, (r = true ↔ φ) → Does (f r) s (W (v && r)) R) : Does (act >>= f) s (W v) R :=
  (h v).bind fun a => Does.pull (hf a)

theorem Decides.seq {act : V Bool} {β : Type} {f : Bool → V β} {P : Info → Prop} {R : β → Info → Prop}
    (h : Decides act s φ) (hf : ∀ r, (r = true ↔ φ) → Does (f r) s (fun _ => True) R) : Does (act >>= f) s P R :=
  (Does.conseq h (fun _ _ => trivial) (Q' := fun b _ => (b = true ↔ φ) ∧ True) fun _ _ x => ⟨x, trivial⟩).bind
    fun a => Does.pull (hf a)

theorem Verifies.seq {act : V Bool} {β : Type} {f : Bool → V β} {P : Info → Prop} {R : β → Info → Prop}
    (h : Verifies act s φ) (hf : ∀ r, (r = true ↔ φ) → Does (f r) s (W r) R) : Does (act >>= f) s P R :=
  (Does.conseq h (fun _ _ => trivial) (Q' := fun b t => (b = true ↔ φ) ∧ W b t)
    fun _ _ x => ⟨x.1, x.2.verdict⟩).bind fun a => Does.pull (hf a)

/-- Messages leave every other part of the report alone. -/
theorem does_log {k : Str} (hk : k ≠ vkey) {x : Info} {P : Info → Prop}
    (hp : ∀ t f, P t → P (t.update k f)) (act : V Unit) (ha : ∀ t, act t = .ok ((), t.update k (·.push x))) :
    Does act s P fun _ t => P t := by
  intro t ht
  constructor
  · intro a t' h
    rw [ha] at h
    injection h with h
    obtain ⟨-, rfl⟩ := Prod.mk.inj h
    exact hp t _ ht
  · intro _ hc
    refine ⟨_, _, ha t, hc.update ?_ fun h => absurd h hk⟩
    cases (t.child? k).getD .empty <;> trivial

theorem verdict_update {t : Info} {k : Str} (hk : k ≠ vkey) (f : Info → Info) :
    verdict (t.update k f) = verdict t := by
  unfold verdict; rw [child_update_ne _ _ _ (Ne.symm hk)]

theorem W.update {v : Bool} {k : Str} (hk : k ≠ vkey) (t : Info) (f : Info → Info) (h : W v t) :
    W v (t.update k f) := by unfold W; rw [verdict_update hk]; exact h

theorem err_does (p m : Str) (v : Bool) : Does (V.err p m) s (W v) fun _ t => W v t :=
  does_log (by decide) (fun t f => W.update (by decide) t f) _ fun _ => rfl
theorem note_does (p m : Str) (v : Bool) : Does (V.note p m) s (W v) fun _ t => W v t :=
  does_log (by decide) (fun t f => W.update (by decide) t f) _ fun _ => rfl
theorem opt_does (p m : Str) (v : Bool) : Does (V.opt p m) s (W v) fun _ t => W v t :=
  does_log (by decide) (fun t f => W.update (by decide) t f) _ fun _ => rfl

theorem valid_does (b v : Bool) : Does (V.valid b) s (W v) fun _ t => Marked t (v && b) := by
  intro t ht
  constructor
  · intro a t' h
    unfold V.valid at h
    cases hv : Log.validation t b with
    | ok t1 =>
      rw [hv] at h
      have : Res.ok ((), t1) = Res.ok (a, t') := h
      injection this with this
      obtain ⟨-, rfl⟩ := Prod.mk.inj this
      have := (validation_ok hv).1
      rwa [show verdict t = v from ht] at this
    | error => rw [hv] at h; exact absurd h (by simp)
    | ub => rw [hv] at h; exact absurd h (by simp)
  · intro _ hc
    obtain ⟨t1, h1, c1⟩ := validation_total hc b
    exact ⟨(), t1, by unfold V.valid; rw [h1]; rfl, c1⟩

theorem reset_then {β : Type} {f : V β} {P : Info → Prop} {R : β → Info → Prop} (h : Does f s (W true) R) :
    Does (V.reset >>= fun _ => f) s P R := by
  refine Does.bind (Q := fun _ t => W true t) ?_ fun _ => h
  intro t _
  constructor
  · intro a t' e
    have : Res.ok ((), Info.empty) = Res.ok (a, t') := e
    injection this with this
    obtain ⟨-, rfl⟩ := Prod.mk.inj this
    rfl
  · exact fun _ _ => ⟨(), .empty, rfl, trivial⟩

theorem finish_does (b v : Bool) : Does (V.finish b) s (W v) fun r t => r = b ∧ Marked t (v && b) :=
  (valid_does b v).bind fun _ => Does.pure _ fun _ h => ⟨rfl, h⟩

/-- The end of a verify function whose verdict is known. -/
theorem finish_of {b : Bool} (h : b = true ↔ φ) :
    Does (V.finish b) s (W true) fun r t => (r = true ↔ φ) ∧ Marked t r :=
  (finish_does b true).conseq (fun _ => id) fun r t x => by
    obtain ⟨rfl, hm⟩ := x
    exact ⟨h, by simpa using hm⟩

/-- The same when the verdict so far is already part of it. -/
theorem finish_of' {b v : Bool} (h : b = true ↔ φ) (hv : b = true → v = true) :
    Does (V.finish b) s (W v) fun r t => (r = true ↔ φ) ∧ Marked t r :=
  (finish_does b v).conseq (fun _ => id) fun r t x => by
    obtain ⟨rfl, hm⟩ := x
    refine ⟨h, ?_⟩
    cases r
    · simpa using hm
    · simpa [hv rfl] using hm

theorem finish_joins {b : Bool} {v : Bool} (h : b = true ↔ φ) :
    Does (V.finish b) s (W v) fun r t => (r = true ↔ φ) ∧ W (v && r) t :=
  (finish_does b v).conseq (fun _ => id) fun r t x => by
    obtain ⟨rfl, hm⟩ := x
    exact ⟨h, hm.verdict⟩

theorem finish_decides {b : Bool} {P : Info → Prop} (h : b = true ↔ φ) :
    Does (V.finish b) s P fun r _ => (r = true ↔ φ) := fun t _ =>
  ⟨fun a t' e => by rw [((finish_does (s := s) b (verdict t) t rfl).1 a t' e).1]; exact h,
   (finish_does b (verdict t) t rfl).2⟩

theorem sub_does {α : Type} {name : Str} {act : V α} {P : Info → Prop} {Q : α → Info → Prop}
    (hn : s → name ≠ vkey) (h : Does act s P Q) :
    Does (V.sub name act) s (fun t => P ((t.child? name).getD .empty))
      fun a t' => ∃ t c : Info, P ((t.child? name).getD .empty) ∧ Q a c ∧ t' = t.update name fun _ => c := by
  intro t ht
  constructor
  · intro a t' e
    unfold V.sub at e
    obtain ⟨⟨a1, c⟩, h1, h2⟩ := Res.bind_eq_ok.1 e
    injection h2 with h2
    obtain ⟨rfl, rfl⟩ := Prod.mk.inj h2
    exact ⟨t, c, ht, (h _ ht).1 _ _ h1, rfl⟩
  · intro hs hc
    obtain ⟨a, c, h1, c1⟩ := (h _ ht).2 hs hc.getD
    refine ⟨a, t.update name fun _ => c, ?_, hc.update c1 fun e => absurd e (hn hs)⟩
    unfold V.sub
    rw [h1]; rfl

/-- A call on a named part of the report leaves the verdict alone. -/
theorem sub_keeps_of {α : Type} {name : Str} {act : V α} {Q : α → Prop} (hn : name ≠ vkey)
    (h : Does act s (fun _ => True) fun a _ => Q a) (v : Bool) :
    Does (V.sub name act) s (W v) fun a t => Q a ∧ W v t := by
  intro t ht
  have hs := sub_does (fun _ => hn) h t trivial
  refine ⟨fun a t' e => ?_, hs.2⟩
  unfold V.sub at e
  obtain ⟨⟨a1, c⟩, h1, h2⟩ := Res.bind_eq_ok.1 e
  injection h2 with h2
  obtain ⟨rfl, rfl⟩ := Prod.mk.inj h2
  exact ⟨(h _ trivial).1 _ _ h1, W.update hn t _ ht⟩

theorem Decides.sub {name : Str} {act : V Bool} (h : Decides act s φ) (hn : name ≠ vkey) :
    Keeps (V.sub name act) s φ := fun v => sub_keeps_of hn h v

/-- A call on a part of the report named by the mesh. -/
theorem sub_any {α : Type} {name : Str} {act : V α} {Q : α → Prop} {P : Info → Prop} (hn : s → name ≠ vkey)
    (h : Does act s (fun _ => True) fun a _ => Q a) :
    Does (V.sub name act) s P fun a _ => Q a :=
  (sub_does hn h).conseq (fun _ _ => trivial) fun _ _ x => by obtain ⟨_, _, _, hq, _⟩ := x; exact hq

theorem Decides.subAny {name : Str} {act : V Bool} (h : Decides act s φ) (hn : s → name ≠ vkey) :
    Decides (V.sub name act) s φ := sub_any hn h

theorem valid_any (b : Bool) {P : Info → Prop} : Does (V.valid b) s P fun _ _ => True := fun t _ =>
  ⟨fun _ _ _ => trivial, (valid_does b (verdict t) t rfl).2⟩

theorem sub_valid {name : Str} (hn : name ≠ vkey) (b v : Bool) :
    Does (V.sub name (V.valid b)) s (W v) fun _ t => W v t :=
  (sub_keeps_of (Q := fun _ => True) hn (valid_any b) v).conseq (fun _ => id) fun _ _ x => x.2

theorem sub_touch {name : Str} (hn : name ≠ vkey) (v : Bool) :
    Does (V.sub name (pure ())) s (W v) fun _ t => W v t :=
  (sub_keeps_of (Q := fun _ => True) hn (Does.pure _ fun _ _ => trivial) v).conseq (fun _ => id) fun _ _ x => x.2

theorem demand_keeps (b : Bool) (p m : Str) : Keeps (V.demand b p m) s (b = true) := by
  intro v
  unfold V.demand
  cases b
  · exact (err_does p m v).bind fun _ => Does.pure _ fun _ h => ⟨by simp, h⟩
  · exact Does.pure _ fun _ h => ⟨by simp, h⟩

theorem pure_keeps (b : Bool) : Keeps (pure b : V Bool) s (b = true) := fun v => Does.pure _ fun _ h => ⟨Iff.rfl, h⟩

theorem Keeps.andAlso {a b : V Bool} (ha : Keeps a s φ) (hb : φ → Keeps b s ψ) :
    Keeps (V.andAlso a b) s (φ ∧ ψ) := by
  intro v
  refine ha.seq fun r hr => ?_
  cases r
  · exact Does.pure _ fun _ h => ⟨⟨fun h => absurd h (by simp), fun h => absurd (hr.2 h.1) (by simp)⟩, h⟩
  · have hp := hr.1 rfl
    exact ((hb hp) v).conseq (fun _ => id) fun r t x => ⟨⟨fun h => ⟨hp, x.1.1 h⟩, fun h => x.1.2 h.2⟩, x.2⟩

theorem Keeps.all {β : Type} {f : β → V Bool} {φ : β → Prop} (l : List β)
    (h : ∀ x ∈ l, Keeps (f x) s (φ x)) : Keeps (V.all f l) s (∀ x ∈ l, φ x) := by
  induction l with
  | nil => exact (pure_keeps true).iff (by simp)
  | cons x l ih =>
    intro v
    refine (h x (by simp)).seq fun a ha => ?_
    refine (ih fun y hy => h y (List.mem_cons_of_mem _ hy)).seq fun b hb => ?_
    exact Does.pure _ fun _ hw => ⟨by simp only [Bool.and_eq_true, ha, hb]; simp, hw⟩

theorem Decides.all {β : Type} {f : β → V Bool} {φ : β → Prop} (l : List β)
    (h : ∀ x ∈ l, Decides (f x) s (φ x)) : Decides (V.all f l) s (∀ x ∈ l, φ x) := by
  induction l with
  | nil => exact Does.pure _ fun _ _ => by simp
  | cons x l ih =>
    refine (h x (by simp)).seq fun a ha => ?_
    refine Decides.seq (ih fun y hy => h y (List.mem_cons_of_mem _ hy)) fun b hb => ?_
    exact Does.pure _ fun _ hw => by simp only [Bool.and_eq_true, ha, hb]; simp

/-- A value of the mesh that is there. -/
theorem lift_then {α β : Type} {r : Res α} {a : α} (e : r = .ok a) {f : α → V β} {P : Info → Prop}
    {R : β → Info → Prop} (h : Does (f a) s P R) : Does (V.lift r >>= f) s P R := by
  subst e
  exact (Does.lift _ fun _ => ⟨a, rfl⟩).bind fun b => Does.pull fun e => by injection e with e; subst e; exact h

theorem lift_keeps {α : Type} {r : Res α} {a : α} (e : r = .ok a) {f : α → V Bool} (h : Keeps (f a) s φ) :
    Keeps (V.lift r >>= f) s φ := fun v => lift_then e (h v)

theorem ite_keeps {c : Bool} {a b : V Bool} (ha : c = true → Keeps a s φ) (hb : c = false → Keeps b s φ) :
    Keeps (if c = true then a else b) s φ := by
  cases c
  · exact hb rfl
  · exact ha rfl

end Conduit.Mesh

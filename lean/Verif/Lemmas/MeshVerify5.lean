import Verif.Lemmas.MeshVerify4
/-
What the checks of whole meshes decide, and what they report.
-/
namespace Conduit.Mesh
open Log (Info)

/-- The part of the report on the entry `name` of the collection `coll`. -/
def ent (t : Info) (coll name : Str) : Info := (((t.child? coll).getD .empty).child? name).getD .empty

/-- The report carries a verdict, which is that of `φ`. -/
def Says (e : Info) (φ : Prop) : Prop := ∃ b, Marked e b ∧ (b = true ↔ φ)

theorem Says.iff {e : Info} {φ ψ : Prop} (h : Says e φ) (x : φ ↔ ψ) : Says e ψ := by rwa [← propext x]

/-- What stays true when the report of one entry changes. -/
def Stable (coll name : Str) (I : Info → Prop) : Prop :=
  ∀ t x, I t → I (t.update coll fun _ => ((t.child? coll).getD .empty).update name fun _ => x)

theorem ent_self (t : Info) (coll name : Str) (x : Info) :
    ent (t.update coll fun _ => ((t.child? coll).getD .empty).update name fun _ => x) coll name = x := by
  unfold ent
  rw [child_update_self, Option.getD_some, child_update_self, Option.getD_some]

theorem ent_other (t : Info) (coll name other : Str) (h : other ≠ name) (x : Info) :
    ent (t.update coll fun _ => ((t.child? coll).getD .empty).update name fun _ => x) coll other = ent t coll other := by
  unfold ent
  rw [child_update_self, Option.getD_some, child_update_ne _ _ _ h]

theorem ent_coll (t : Info) (coll name coll' : Str) (h : coll' ≠ coll) (x : Info) (f : Info → Info) :
    ent (t.update coll f) coll' name = ent t coll' name := by
  unfold ent
  rw [child_update_ne _ _ _ h]

theorem update_same {t c : Info} {n : Str} (h : t.child? n = some c) : (t.update n fun _ => c) = t := by
  cases t with
  | obj es =>
    simp only [Log.Info.update, Log.Info.child?] at *
    congr 1
    induction es with
    | nil => simp at h
    | cons e es ih =>
      obtain ⟨k, x⟩ := e
      by_cases hk : k = n
      · simp [hk] at h
        simp [Log.putEntry, hk, h]
      · simp [hk] at h
        simp only [Log.putEntry, hk, if_false]
        rw [ih (by simpa using h)]
  | _ => simp [Log.Info.child?] at h

section
variable {F : Type} {s φ ψ : Prop}

theorem entry_does {α : Type} {coll name : Str} {act : V α} {P : Info → Prop} {Q : α → Info → Prop} {I : Info → Prop}
    (hc : coll ≠ vkey) (hn : name ≠ vkey) (hI : Stable coll name I) (h : Does act s P Q) :
    Does (V.sub coll (V.sub name act)) s (fun t => I t ∧ P (ent t coll name))
      fun a t => Q a (ent t coll name) ∧ I t := by
  intro t ht
  obtain ⟨h1, h2⟩ := h (ent t coll name) ht.2
  constructor
  · intro a t' e
    unfold V.sub at e
    obtain ⟨⟨a1, c1⟩, e1, e2⟩ := Res.bind_eq_ok.1 e
    obtain ⟨⟨a2, c2⟩, e3, e4⟩ := Res.bind_eq_ok.1 e1
    injection e2 with e2
    injection e4 with e4
    obtain ⟨rfl, rfl⟩ := Prod.mk.inj e2
    obtain ⟨rfl, rfl⟩ := Prod.mk.inj e4
    refine ⟨?_, hI t c2 ht.1⟩
    rw [ent_self]
    exact h1 _ _ e3
  · intro hs hcl
    obtain ⟨a, c, e, cl⟩ := h2 hs hcl.getD.getD
    refine ⟨a, t.update coll fun _ => ((t.child? coll).getD .empty).update name fun _ => c, ?_, ?_⟩
    · unfold V.sub
      have e' : act ((((t.child? coll).getD .empty).child? name).getD .empty) = .ok (a, c) := e
      simp only [e', Res.bind_ok]
    · exact hcl.update (hcl.getD.update cl fun x => absurd x hn) fun x => absurd x hc

/-- The entries of a collection. -/
def entries (n : BNode F) (coll : Str) : List (Str × BNode F) :=
  match n.get coll with
  | .ok e => e.kids
  | _ => []

theorem entries_of {n e : BNode F} {coll : Str} (h : n.get coll = .ok e) : entries n coll = e.kids := by
  unfold entries; rw [h]

theorem entries_nil {n : BNode F} {coll : Str} (h : ¬ ∃ ks, n.get coll = .ok (.obj ks) ∧ ks ≠ []) :
    entries n coll = [] := by
  unfold entries
  cases e : n.get coll with
  | ok c =>
    cases c with
    | obj ks =>
      by_cases hk : ks = []
      · simp [hk, BNode.kids]
      · exact absurd ⟨ks, e, hk⟩ h
    | _ => rfl
  | error => rfl
  | ub => rfl

/-- The report on every entry of the collection carries the verdict of `good`. -/
def Known (n : BNode F) (coll : Str) (good : BNode F → Prop) (t : Info) : Prop :=
  ∀ k ∈ entries n coll, Says (ent t coll k.1) (good k.2)

theorem Known.congr {n : BNode F} {coll : Str} {good : BNode F → Prop} {t t' : Info}
    (e : t'.child? coll = t.child? coll) (h : Known n coll good t) : Known n coll good t' := by
  intro k hk
  have := h k hk
  unfold ent at *
  rwa [e]

theorem Does.exists {α ι : Type} {act : V α} {P : ι → Info → Prop} {Q : α → Info → Prop} (h : ∀ i, Does act s (P i) Q) :
    Does act s (fun t => ∃ i, P i t) Q := fun t ⟨i, hi⟩ => h i t hi

theorem Keeps.does {act : V Bool} (h : Keeps act s φ) (b : Bool) :
    Does act s (W b) fun r t => (r = true ↔ φ) ∧ W b t := h b

theorem entry_mem {n c : BNode F} {coll x : Str} (h : Entry n coll x c) : (x, c) ∈ entries n coll := by
  obtain ⟨e, h1, h2⟩ := h
  rw [entries_of h1]
  obtain ⟨ks, rfl, hm⟩ := obj_of_get h2
  exact hm

theorem read_does {n e : BNode F} {refPath ref : Str} {good : BNode F → Prop} {X : Info → Prop}
    (he : Entry n refPath ref e) (hk : ∀ t, X t → Known n refPath good t) :
    Does (V.sub refPath (V.sub ref (V.sub (chars! "valid") fun t =>
        (match t with | .str s => .ok (s, .str s) | _ => .error : Res (Str × Info))))) s X
      fun v t => (∃ b, v = tf b ∧ (b = true ↔ good e)) ∧ X t := by
  intro t ht
  obtain ⟨b, hm, hb⟩ := hk t ht (ref, e) (entry_mem he)
  have key : V.sub refPath (V.sub ref (V.sub (chars! "valid") fun t =>
        (match t with | .str s => .ok (s, .str s) | _ => .error : Res (Str × Info)))) t = .ok (tf b, t) := by
    unfold Marked ent at hm
    cases h1 : t.child? refPath with
    | none => rw [h1] at hm; exact absurd hm (by simp [Log.Info.child?])
    | some E =>
      rw [h1, Option.getD_some] at hm
      cases h2 : E.child? ref with
      | none => simp only [h2] at hm; exact absurd hm (by simp [Log.Info.child?])
      | some x =>
        simp only [h2, Option.getD_some] at hm
        unfold V.sub
        simp only [h1, h2, Option.getD_some]
        rw [show x.child? (chars! "valid") = some (.str (tf b)) from hm]
        simp only [Option.getD_some, Res.bind_ok]
        rw [update_same (show x.child? (chars! "valid") = some (.str (tf b)) from hm), update_same h2, update_same h1]
  rw [key]
  constructor
  · intro a t' x
    injection x with x
    obtain ⟨rfl, rfl⟩ := Prod.mk.inj x
    exact ⟨⟨b, rfl, hb⟩, ht⟩
  · intro _ hc; exact ⟨_, _, rfl, hc⟩

theorem tf_true {b : Bool} : tf b = chars! "true" ↔ b = true := by cases b <;> decide

theorem referenceField_does {p coll name f refPath : Str} {n c : BNode F} {good : BNode F → Prop} {I : Info → Prop}
    (hc : coll ≠ vkey) (hn : name ≠ vkey) (hf : f ≠ vkey) (hI : Stable coll name I)
    (hk : ∀ t, I t → Known n refPath good t) (b0 : Bool) :
    Does (referenceField p n coll name c f refPath) s (fun t => I t ∧ W b0 (ent t coll name))
      fun b t => (b = true ↔ RefersTo n c f refPath good) ∧ I t ∧ Marked (ent t coll name) (b0 && b) := by
  have fin : ∀ res : Bool, (res = true ↔ RefersTo n c f refPath good) →
      Does (do
        V.sub coll (V.sub name (V.sub f (V.valid res)))
        V.sub coll (V.sub name (V.valid res))
        pure res : V Bool) s (fun t => I t ∧ W b0 (ent t coll name))
      fun b t => (b = true ↔ RefersTo n c f refPath good) ∧ I t ∧ Marked (ent t coll name) (b0 && b) := by
    intro res hr
    refine (entry_does hc hn hI (sub_valid hf res b0)).bind fun _ => ?_
    refine Does.bind (Does.conseq (entry_does hc hn hI (valid_does res b0)) (fun t x => ⟨x.2, x.1⟩) fun _ _ x => x) fun _ => ?_
    exact Does.pure _ fun t x => ⟨hr, x.2, x.1⟩
  have fin' : ∀ {act : V Bool}, Does act s (fun t => I t ∧ W b0 (ent t coll name))
      (fun r t => (r = true ↔ RefersTo n c f refPath good) ∧ I t ∧ W b0 (ent t coll name)) →
      Does (do
        let res ← act
        V.sub coll (V.sub name (V.sub f (V.valid res)))
        V.sub coll (V.sub name (V.valid res))
        pure res : V Bool) s (fun t => I t ∧ W b0 (ent t coll name))
      fun b t => (b = true ↔ RefersTo n c f refPath good) ∧ I t ∧ Marked (ent t coll name) (b0 && b) :=
    fun h => h.bind fun r => Does.pull (fin r)
  refine fin' ?_
  refine (entry_does hc hn hI ((stringField_keeps hf).does b0)).bind fun r => ?_
  refine Does.conseq (P := fun t => (r = true ↔ HasStr c f) ∧ I t ∧ W b0 (ent t coll name))
    (Does.pull fun hr => ?_) (fun t x => ⟨x.1.1, x.2, x.1.2⟩) fun _ _ x => x
  cases r
  · refine Does.pure _ fun t x => ⟨⟨fun y => absurd y (by simp), ?_⟩, x⟩
    rintro ⟨y, _, hy, -⟩
    exact absurd (hr.2 ⟨y, hy⟩) (by simp)
  · obtain ⟨x, hx⟩ := hr.1 rfl
    simp only [if_true]
    refine lift_then hx (lift_then (a := x) rfl ?_)
    by_cases hfound : ∃ e, Entry n refPath x e
    · obtain ⟨e, he⟩ := hfound
      have hfd : (if n.hasChild refPath = true then (n.get refPath).map' fun r => r.hasChild x else .ok false : Res Bool) = .ok true := by
        obtain ⟨r, h1, h2⟩ := he
        rw [if_pos (hasChild_get h1), h1, Res.map'_ok, hasChild_get h2]
      refine lift_then hfd ?_
      rw [if_neg (by simp)]
      refine (read_does (X := fun t => I t ∧ W b0 (ent t coll name)) he fun t ht => hk t ht.1).bind fun v => ?_
      refine Does.pull fun ⟨b1, hv, hb1⟩ => ?_
      have hR : RefersTo n c f refPath good ↔ good e := by
        constructor
        · rintro ⟨y, e', hy, ⟨r, h1, h2⟩, hg⟩
          have := get_inj hy hx
          injection this with this; subst this
          obtain ⟨r', h1', h2'⟩ := he
          obtain rfl := get_inj h1 h1'
          obtain rfl := get_inj h2 h2'
          exact hg
        · intro hg; exact ⟨x, e, hx, he, hg⟩
      rw [hR, hv]
      by_cases hb : b1 = true
      · rw [if_neg fun h => h (tf_true.2 hb)]
        exact Does.pure _ fun t y => ⟨⟨fun _ => hb1.1 hb, fun _ => rfl⟩, y⟩
      · rw [if_pos (by rw [ne_eq, tf_true]; exact hb)]
        refine (entry_does hc hn hI (err_does p _ b0)).bind fun _ => ?_
        exact Does.pure _ fun t y => ⟨⟨fun z => absurd z (by simp), fun z => absurd (hb1.2 z) hb⟩, y.2, y.1⟩
    · have hfd : (if n.hasChild refPath = true then (n.get refPath).map' fun r => r.hasChild x else .ok false : Res Bool) = .ok false := by
        by_cases h : Has n refPath
        · obtain ⟨r, h1⟩ := h
          rw [if_pos (hasChild_get h1), h1, Res.map'_ok]
          congr 1
          rw [not_has_iff]
          rintro ⟨e, h2⟩
          exact hfound ⟨e, r, h1, h2⟩
        · rw [if_neg (by rw [has_iff]; exact h)]
      refine lift_then hfd ?_
      rw [if_pos (by simp)]
      refine (entry_does hc hn hI (err_does p _ b0)).bind fun _ => ?_
      refine Does.pure _ fun t y => ⟨⟨fun z => absurd z (by simp), ?_⟩, y.2, y.1⟩
      rintro ⟨y, e, hy, he, -⟩
      have := get_inj hy hx
      injection this with this; subst this
      exact absurd ⟨e, he⟩ hfound

theorem optReference_does {p coll name f refPath : Str} {n c : BNode F} {good : BNode F → Prop} {I : Info → Prop}
    (hc : coll ≠ vkey) (hn : name ≠ vkey) (hf : f ≠ vkey) (hI : Stable coll name I)
    (hk : ∀ t, I t → Known n refPath good t) (b0 : Bool) :
    Does (if c.hasChild f = true then referenceField p n coll name c f refPath else pure true : V Bool) s
      (fun t => I t ∧ Marked (ent t coll name) b0)
      fun b t => (b = true ↔ (Has c f → RefersTo n c f refPath good)) ∧ I t ∧ Marked (ent t coll name) (b0 && b) := by
  by_cases h : Has c f
  · rw [if_pos (has_iff.2 h)]
    exact (referenceField_does hc hn hf hI hk b0).conseq (fun t x => ⟨x.1, x.2.verdict⟩) fun b t x =>
      ⟨x.1.trans ⟨fun y _ => y, fun y => y h⟩, x.2⟩
  · rw [if_neg (by rw [has_iff]; exact h)]
    exact Does.pure _ fun t x => ⟨⟨fun _ y => absurd y h, fun _ => rfl⟩, x.1, by rw [Bool.and_true]; exact x.2⟩

theorem verified_entry {coll name : Str} {act : V Bool} {I : Info → Prop} (hc : coll ≠ vkey) (hn : name ≠ vkey)
    (hI : Stable coll name I) (h : Verifies act s φ) :
    Does (V.sub coll (V.sub name act)) s I fun b t => (b = true ↔ φ) ∧ I t ∧ Marked (ent t coll name) b :=
  (entry_does hc hn hI h).conseq (fun _ x => ⟨x, trivial⟩) fun _ _ x => ⟨x.1.1, x.2, x.1.2⟩

/-- An entry that is checked and then refers to another. -/
theorem entry_step {p coll name f refPath : Str} {n c : BNode F} {good : BNode F → Prop} {I : Info → Prop} {act : V Bool}
    (hc : coll ≠ vkey) (hn : name ≠ vkey) (hf : f ≠ vkey) (hI : Stable coll name I)
    (hk : ∀ t, I t → Known n refPath good t) (h : Verifies act s φ) :
    Does (do
      let a ← V.sub coll (V.sub name act)
      let b ← referenceField p n coll name c f refPath
      pure (a && b) : V Bool) s I
      fun b t => (b = true ↔ φ ∧ RefersTo n c f refPath good) ∧ I t ∧
        Says (ent t coll name) (φ ∧ RefersTo n c f refPath good) := by
  refine (verified_entry hc hn hI h).bind fun a => Does.pull fun ha => ?_
  refine Does.bind (Does.conseq (referenceField_does hc hn hf hI hk a) (fun t x => ⟨x.1, x.2.verdict⟩) fun _ _ x => x) fun b => ?_
  refine Does.pull fun hb => ?_
  have e : (a && b) = true ↔ φ ∧ RefersTo n c f refPath good := by rw [Bool.and_eq_true, ha, hb]
  exact Does.pure _ fun t x => ⟨e, x.1, _, x.2, e⟩

/-- A check of every entry of a collection. -/
theorem all_entries {coll : Str} {l : List (Str × BNode F)} {check : Str × BNode F → V Bool} {good : Str × BNode F → Prop}
    {P Q : Str × BNode F → Info → Prop} {I0 : Info → Prop} (hnd : (l.map (·.1)).Nodup)
    (hstep : ∀ k ∈ l, ∀ I, Stable coll k.1 I → (∀ t, I t → I0 t) →
      Does (check k) s (fun t => I t ∧ P k (ent t coll k.1)) fun b t => (b = true ↔ good k) ∧ I t ∧ Q k (ent t coll k.1)) :
    ∀ I, (∀ k ∈ l, Stable coll k.1 I) → (∀ t, I t → I0 t) →
      Does (V.all check l) s (fun t => I t ∧ ∀ k ∈ l, P k (ent t coll k.1))
        fun b t => (b = true ↔ ∀ k ∈ l, good k) ∧ I t ∧ ∀ k ∈ l, Q k (ent t coll k.1) := by
  induction l with
  | nil => intro I _ _; exact Does.pure _ fun t x => ⟨by simp, x.1, by simp⟩
  | cons k l ih =>
    intro I hI hI0
    rw [List.map_cons, List.nodup_cons] at hnd
    have ne : ∀ k' ∈ l, k'.1 ≠ k.1 := fun k' hk' e => hnd.1 (e ▸ List.mem_map_of_mem hk')
    have step := hstep k (by simp) (fun t => I t ∧ ∀ k' ∈ l, P k' (ent t coll k'.1)) (fun t x ht =>
      ⟨hI k (by simp) t x ht.1, fun k' hk' => by rw [ent_other _ _ _ _ (ne k' hk')]; exact ht.2 k' hk'⟩) (fun t ht => hI0 t ht.1)
    have rest := ih hnd.2 (fun k' hk' => hstep k' (List.mem_cons_of_mem _ hk')) (fun t => I t ∧ Q k (ent t coll k.1))
      (fun k' hk' t x ht => ⟨hI k' (List.mem_cons_of_mem _ hk') t x ht.1, by
        rw [ent_other _ _ _ _ (Ne.symm (ne k' hk'))]; exact ht.2⟩) (fun t ht => hI0 t ht.1)
    refine Does.bind (Does.conseq step (fun t x => ⟨⟨x.1, fun k' hk' => x.2 k' (List.mem_cons_of_mem _ hk')⟩, x.2 k (by simp)⟩)
      fun _ _ x => x) fun a => Does.pull fun ha => ?_
    refine Does.bind (Does.conseq rest (fun t x => ⟨⟨x.1.1, x.2⟩, x.1.2⟩) fun _ _ x => x) fun b => Does.pull fun hb => ?_
    refine Does.pure _ fun t x => ⟨?_, x.1.1, ?_⟩
    · rw [Bool.and_eq_true, ha, hb]; simp
    · intro k' hk'
      rcases List.mem_cons.1 hk' with rfl | hk'
      · exact x.1.2
      · exact x.2 k' hk'

theorem all_inv {β : Type} {l : List β} {check : β → V Bool} {good : β → Prop} {I : Info → Prop}
    (hstep : ∀ k ∈ l, Does (check k) s I fun b t => (b = true ↔ good k) ∧ I t) :
    Does (V.all check l) s I fun b t => (b = true ↔ ∀ k ∈ l, good k) ∧ I t := by
  induction l with
  | nil => exact Does.pure _ fun t x => ⟨by simp, x⟩
  | cons k l ih =>
    refine (hstep k (by simp)).bind fun a => Does.pull fun ha => ?_
    refine Does.bind (ih fun k' hk' => hstep k' (List.mem_cons_of_mem _ hk')) fun b => Does.pull fun hb => ?_
    exact Does.pure _ fun t x => ⟨by rw [Bool.and_eq_true, ha, hb]; simp, x⟩

/-! ### Collections -/

/-- Calls that leave one part of the report alone. -/
def Frame {α : Type} (act : V α) (c : Str) : Prop := ∀ t a t', act t = .ok (a, t') → t'.child? c = t.child? c

theorem Frame.bind {α β : Type} {act : V α} {f : α → V β} {c : Str} (h : Frame act c) (hf : ∀ a, Frame (f a) c) :
    Frame (act >>= f) c := by
  intro t b t' e
  obtain ⟨⟨a, t1⟩, h1, h2⟩ := Res.bind_eq_ok.1 (show (act t >>= fun r => f r.1 r.2) = .ok (b, t') from e)
  rw [hf a _ _ _ h2, h _ _ _ h1]

theorem Frame.pure {α : Type} (a : α) (c : Str) : Frame (pure a : V α) c := by
  intro t b t' e
  have : Res.ok (a, t) = Res.ok (b, t') := e
  injection this with this
  obtain ⟨-, rfl⟩ := Prod.mk.inj this
  rfl

theorem Frame.lift {α : Type} (r : Res α) (c : Str) : Frame (V.lift r) c := by
  intro t b t' e
  cases r with
  | ok a =>
    have : Res.ok (a, t) = Res.ok (b, t') := e
    injection this with this
    obtain ⟨-, rfl⟩ := Prod.mk.inj this
    rfl
  | error => exact absurd e (by simp [V.lift])
  | ub => exact absurd e (by simp [V.lift])

theorem Frame.sub {α : Type} {act : V α} {coll c : Str} (h : c ≠ coll) : Frame (V.sub coll act) c := by
  intro t b t' e
  unfold V.sub at e
  obtain ⟨⟨a1, c1⟩, e1, e2⟩ := Res.bind_eq_ok.1 e
  injection e2 with e2
  obtain ⟨-, rfl⟩ := Prod.mk.inj e2
  exact child_update_ne _ _ _ h _

theorem Frame.err {p m c : Str} (h : c ≠ chars! "errors") : Frame (V.err p m) c := by
  intro t b t' e
  have : Res.ok ((), Log.error t p m) = Res.ok (b, t') := e
  injection this with this
  obtain ⟨-, rfl⟩ := Prod.mk.inj this
  exact child_update_ne _ _ _ h _

theorem Frame.demand {b : Bool} {p m c : Str} (h : c ≠ chars! "errors") : Frame (V.demand b p m) c := by
  unfold V.demand
  cases b
  · exact (Frame.err h).bind fun _ => Frame.pure _ _
  · exact Frame.pure _ _

theorem Frame.andAlso {a b : V Bool} {c : Str} (ha : Frame a c) (hb : Frame b c) : Frame (V.andAlso a b) c := by
  refine ha.bind fun r => ?_
  cases r
  · exact Frame.pure _ _
  · exact hb

theorem Frame.objectField {p f c : Str} {n : BNode F} {al ae : Bool} {num : Nat} (h : c ≠ f) (he : c ≠ chars! "errors") :
    Frame (objectField p n f al ae num) c := by
  refine (Frame.sub h).bind fun _ => ?_
  refine (Frame.andAlso ((Frame.demand he).bind fun _ => (Frame.sub h).bind fun _ => Frame.pure _ _) ?_).bind
    fun _ => (Frame.sub h).bind fun _ => Frame.pure _ _
  refine (Frame.lift _ _).bind fun d => ?_
  unfold objectTests
  split
  · exact (Frame.err he).bind fun _ => Frame.pure _ _
  · split
    · exact (Frame.err he).bind fun _ => Frame.pure _ _
    · split
      · exact (Frame.err he).bind fun _ => Frame.pure _ _
      · exact Frame.pure _ _

/-- The property depends on the verdict and on the parts `L` of the report. -/
def Depends (L : List Str) (I : Info → Prop) : Prop :=
  ∀ t t', verdict t' = verdict t → (∀ c ∈ L, t'.child? c = t.child? c) → I t → I t'

theorem depends_W (v : Bool) : Depends [] (W v) := fun t t' e _ h => by unfold W at *; rw [e, h]

theorem Depends.known {L : List Str} {I : Info → Prop} (h : Depends L I) (n : BNode F) (coll : Str)
    (good : BNode F → Prop) : Depends (coll :: L) fun t => I t ∧ Known n coll good t := fun t t' e hc hi =>
  ⟨h t t' e (fun c hm => hc c (List.mem_cons_of_mem _ hm)) hi.1, hi.2.congr (hc coll (by simp))⟩

theorem ne_of_mem_of_not_mem {L : List Str} {a b : Str} (h : a ∈ L) (hb : b ∉ L) : a ≠ b := fun e => hb (e ▸ h)

theorem Depends.stable {L : List Str} {I : Info → Prop} (h : Depends L I) {coll : Str} (hc : coll ≠ vkey)
    (hL : coll ∉ L) (name : Str) : Stable coll name I := fun t x hi =>
  h t _ (verdict_update hc _) (fun c hm => child_update_ne _ _ _ (ne_of_mem_of_not_mem hm hL) _) hi

theorem Depends.sub {L : List Str} {I : Info → Prop} (h : Depends L I) {coll : Str} (hc : coll ≠ vkey)
    (hL : coll ∉ L) {α : Type} {act : V α} (ha : Does act s (fun _ => True) fun _ _ => True) :
    Does (V.sub coll act) s I fun _ t => I t := fun t ht =>
  have hs := sub_does (fun _ => hc) ha t trivial
  ⟨fun a t' e => by
    unfold V.sub at e
    obtain ⟨⟨a1, c1⟩, e1, e2⟩ := Res.bind_eq_ok.1 e
    injection e2 with e2
    obtain ⟨-, rfl⟩ := Prod.mk.inj e2
    exact h t _ (verdict_update hc _) (fun c hm => child_update_ne _ _ _ (ne_of_mem_of_not_mem hm hL) _) ht, hs.2⟩

theorem Depends.objectField {L : List Str} {I : Info → Prop} (h : Depends L I) {p coll : Str} {n : BNode F}
    (hc : coll ≠ vkey) (hL : coll ∉ L) (hE : chars! "errors" ∉ L) :
    Does (objectField p n coll) s I fun b t => (b = true ↔ ∃ ks, n.get coll = .ok (.obj ks) ∧ ks ≠ []) ∧ I t := fun t ht =>
  have hk := objectField_plain (s := s) (p := p) (n := n) hc (verdict t) t rfl
  ⟨fun b t' e => ⟨(hk.1 b t' e).1, h t t' (hk.1 b t' e).2 (fun c hm =>
    Frame.objectField (ne_of_mem_of_not_mem hm hL) (ne_of_mem_of_not_mem hm hE) t b t' e) ht⟩, hk.2⟩

theorem valid_known {n : BNode F} (hp : Plain n) {coll : Str} {good : BNode F → Prop} {I : Info → Prop} {L : List Str}
    (h : Depends L I) (hc : coll ≠ vkey) (hL : coll ∉ L) (r : Bool) :
    Does (V.sub coll (V.valid r)) s (fun t => I t ∧ Known n coll good t) fun _ t => I t ∧ Known n coll good t := fun t ht =>
  ⟨fun a t' e => by
    refine ⟨(h.sub (s := s) hc hL (valid_any r) t ht.1).1 a t' e, fun k hk => ?_⟩
    have hname : k.1 ≠ vkey := by
      unfold entries at hk
      cases hg : n.get coll with
      | ok c => rw [hg] at hk; exact ((hp.get hg).kid hk).1
      | error => rw [hg] at hk; simp at hk
      | ub => rw [hg] at hk; simp at hk
    have hb := ht.2 k hk
    unfold V.sub at e
    obtain ⟨⟨a1, c1⟩, e1, e2⟩ := Res.bind_eq_ok.1 e
    injection e2 with e2
    obtain ⟨-, rfl⟩ := Prod.mk.inj e2
    unfold ent
    rw [child_update_self, Option.getD_some]
    unfold V.valid at e1
    cases hv : Log.validation ((t.child? coll).getD .empty) r with
    | ok t1 =>
      rw [hv] at e1
      have : Res.ok ((), t1) = Res.ok (a1, c1) := e1
      injection this with this
      obtain ⟨-, rfl⟩ := Prod.mk.inj this
      rw [(validation_ok hv).2 _ hname]
      exact hb
    | error => rw [hv] at e1; exact absurd e1 (by simp)
    | ub => rw [hv] at e1; exact absurd e1 (by simp),
   (h.sub (s := s) hc hL (valid_any r) t ht.1).2⟩

theorem collection_does {p coll : Str} {n : BNode F} {check : Str → BNode F → V Bool} {good : BNode F → Prop}
    {L : List Str} {I : Info → Prop} (hp : Plain n) (hD : Depends L I) (hc : coll ≠ vkey) (hL : coll ∉ L)
    (hE : chars! "errors" ∉ L)
    (hstep : ∀ ks, n.get coll = .ok (.obj ks) → ∀ k ∈ ks, ∀ J, Stable coll k.1 J → (∀ t, J t → I t) →
      Does (check k.1 k.2) s J fun b t => (b = true ↔ good k.2) ∧ J t ∧ Says (ent t coll k.1) (good k.2)) :
    Does (collection p n coll check) s I
      fun b t => (b = true ↔ AllOf n coll good) ∧ I t ∧ Known n coll good t := by
  refine (hD.objectField hc hL hE).bind fun r => Does.pull fun hr => ?_
  cases r
  · refine Does.pure _ fun t ht => ⟨⟨fun x => absurd x (by simp), ?_⟩, ht, ?_⟩
    · rintro ⟨ks, h1, h2, -⟩; exact absurd (hr.2 ⟨ks, h1, h2⟩) (by simp)
    · have := entries_nil fun h => absurd (hr.2 h) (by simp)
      intro k hk; rw [this] at hk; simp at hk
  · obtain ⟨ks, hk, hne⟩ := hr.1 rfl
    simp only [if_true]
    refine lift_then hk ?_
    refine Does.bind (Does.conseq (all_entries (l := ks) (coll := coll) (good := fun k => good k.2) (P := fun _ _ => True)
      (Q := fun k e => Says e (good k.2)) (I0 := I) (hp.get hk).nodup
      (fun k hm J hJ hJI => (hstep ks hk k hm J hJ hJI).conseq (fun _ x => x.1) fun _ _ x => x) I
      (fun k _ => hD.stable hc hL k.1) fun _ => id) (fun t x => ⟨x, fun _ _ => trivial⟩)
      (Q' := fun b t => (b = true ↔ ∀ k ∈ ks, good k.2) ∧ I t ∧ Known n coll good t) fun b t x => ⟨x.1, x.2.1, ?_⟩)
      fun b => Does.pull fun hb => ?_
    · intro k hm; rw [entries_of hk] at hm; exact x.2.2 k hm
    · refine (valid_known hp hD hc hL b).bind fun _ => Does.pure _ fun t x => ⟨?_, x⟩
      rw [hb]
      constructor
      · intro h; exact ⟨ks, hk, hne, h⟩
      · rintro ⟨ks', hk', -, h⟩
        have := get_inj hk hk'; injection this with this; subst this; exact h

theorem optCollection_does {p coll : Str} {n : BNode F} {check : Str → BNode F → V Bool} {good : BNode F → Prop}
    {L : List Str} {I : Info → Prop} (hp : Plain n) (hD : Depends L I) (hc : coll ≠ vkey) (hL : coll ∉ L)
    (hE : chars! "errors" ∉ L)
    (hstep : ∀ ks, n.get coll = .ok (.obj ks) → ∀ k ∈ ks, ∀ J, Stable coll k.1 J → (∀ t, J t → I t) →
      Does (check k.1 k.2) s J fun b t => (b = true ↔ good k.2) ∧ J t ∧ Says (ent t coll k.1) (good k.2)) :
    Does (if n.hasChild coll = true then collection p n coll check else pure true : V Bool) s I
      fun b t => (b = true ↔ (Has n coll → AllOf n coll good)) ∧ I t ∧ Known n coll good t := by
  by_cases h : Has n coll
  · rw [if_pos (has_iff.2 h)]
    exact (collection_does hp hD hc hL hE hstep).conseq (fun _ => id) fun b t x =>
      ⟨x.1.trans ⟨fun y _ => y, fun y => y h⟩, x.2⟩
  · rw [if_neg (by rw [has_iff]; exact h)]
    refine Does.pure _ fun t ht => ⟨⟨fun _ x => absurd x h, fun _ => rfl⟩, ht, ?_⟩
    have := entries_nil (n := n) (coll := coll) fun ⟨ks, e, _⟩ => h ⟨_, e⟩
    intro k hk; rw [this] at hk; simp at hk

end
end Conduit.Mesh

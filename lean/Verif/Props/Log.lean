import Verif.Model.Log
/-
Property theorems C54 (verdicts are monotone) and C59 (pruning an info tree).
-/
namespace Conduit.Log

/-! ## C54 -/

private theorem find_put_same (n : Str) (f : Info → Info) (es : List (Str × Info)) :
    ((putEntry n f es).find? (·.1 == n)).map (·.2) = some (f (((es.find? (·.1 == n)).map (·.2)).getD .empty)) := by
  induction es with
  | nil => simp [putEntry]
  | cons e es ih =>
    obtain ⟨k, c⟩ := e
    simp only [putEntry]
    by_cases h : k = n
    · subst h; simp
    · have hb : (k == n) = false := by simpa using h
      rw [if_neg h]; simp only [List.find?_cons, hb]; exact ih

private theorem find_put_other (n k' : Str) (f : Info → Info) (es : List (Str × Info)) (h : k' ≠ n) :
    ((putEntry n f es).find? (·.1 == k')).map (·.2) = (es.find? (·.1 == k')).map (·.2) := by
  induction es with
  | nil =>
    have : (n == k') = false := by simpa using fun e => h e.symm
    simp [putEntry, this]
  | cons e es ih =>
    obtain ⟨k, c⟩ := e
    simp only [putEntry]
    by_cases hk : k = n
    · subst hk
      have : (k == k') = false := by simpa using fun e => h e.symm
      rw [if_pos rfl]; simp [this]
    · rw [if_neg hk]; simp only [List.find?_cons]
      cases (k == k') <;> simp [ih]

private theorem child_update_same (t : Info) (n : Str) (f : Info → Info) :
    ∃ c, (t.update n f).child? n = some (f c) := by
  cases t <;> simp only [Info.update, Info.child?] <;> rw [find_put_same] <;> exact ⟨_, rfl⟩

private theorem child_update_other (t : Info) (n k : Str) (f : Info → Info) (h : k ≠ n) :
    (t.update n f).child? k = t.child? k := by
  cases t <;> simp only [Info.update, Info.child?] <;> rw [find_put_other _ _ _ _ h] <;> simp

/-- The verdict an info node shows: nothing yet, or the text of `valid`. -/
def verdict (t : Info) : Option Str :=
  match t.child? (chars! "valid") with
  | some (.str s) => some s
  | _ => none

/-- The node can take verdicts: it has no `valid` child, or a string one. -/
def Ready (t : Info) : Prop := t.child? (chars! "valid") = none ∨ ∃ s, t.child? (chars! "valid") = some (.str s)

/-- The results reported among the calls, in order. -/
def reported : List Call → List Bool
  | [] => []
  | .validation r :: cs => r :: reported cs
  | _ :: cs => reported cs

private theorem step (t : Info) (h : Ready t) (c : Call) :
    ∃ t', c.run t = .ok t' ∧ Ready t' ∧
      verdict t' = (match c with
        | .validation r => some (if r && (verdict t == none || verdict t == some (chars! "true"))
            then chars! "true" else chars! "false")
        | _ => verdict t) := by
  have other : ∀ n f, (chars! "valid" : Str) ≠ n → Ready (t.update n f) ∧ verdict (t.update n f) = verdict t := by
    intro n f hn
    have := child_update_other t n (chars! "valid") f hn
    exact ⟨by unfold Ready; rw [this]; exact h, by unfold verdict; rw [this]⟩
  cases c with
  | info p m => exact ⟨_, rfl, other _ _ (by decide)⟩
  | optional p m => exact ⟨_, rfl, other _ _ (by decide)⟩
  | error p m => exact ⟨_, rfl, other _ _ (by decide)⟩
  | validation r =>
    simp only [Call.run, validation]
    rcases h with h | ⟨s, h⟩
    · refine ⟨_, by rw [h]; rfl, ?_⟩
      obtain ⟨c, hc⟩ := child_update_same t (chars! "valid")
        (fun _ => .str (if r && true then chars! "true" else chars! "false"))
      refine ⟨.inr ⟨_, hc⟩, ?_⟩
      have hv : verdict t = none := by unfold verdict; rw [h]
      have hl : verdict (t.update (chars! "valid") (fun _ => .str (if r && true then chars! "true" else chars! "false"))) =
          some (if r && true then chars! "true" else chars! "false") := by unfold verdict; rw [hc]
      rw [hl, hv]; rfl
    · refine ⟨_, by rw [h]; rfl, ?_⟩
      obtain ⟨c, hc⟩ := child_update_same t (chars! "valid")
        (fun _ => .str (if r && (s == chars! "true") then chars! "true" else chars! "false"))
      refine ⟨.inr ⟨_, hc⟩, ?_⟩
      have hv : verdict t = some s := by unfold verdict; rw [h]
      have hl : verdict (t.update (chars! "valid") (fun _ => .str (if r && (s == chars! "true") then chars! "true" else chars! "false"))) =
          some (if r && (s == chars! "true") then chars! "true" else chars! "false") := by unfold verdict; rw [hc]
      rw [hl, hv]; simp

/-- C54: over any sequence of log calls on one info node (messages and verdicts in any
    order), the calls succeed and the verdict is "true" at the end exactly when it was not
    already failing and every reported result was true. -/
theorem C54_verdict_is_conjunction (cs : List Call) (t : Info) (h : Ready t) (hr : reported cs ≠ []) :
    ∃ t', runAll t cs = .ok t' ∧
      verdict t' = some (if (∀ r ∈ reported cs, r = true) ∧ (verdict t = none ∨ verdict t = some (chars! "true"))
        then chars! "true" else chars! "false") := by
  induction cs generalizing t with
  | nil => exact absurd rfl hr
  | cons c cs ih =>
    obtain ⟨t1, h1, h2, h3⟩ := step t h c
    simp only [runAll, h1, Res.bind_ok]
    by_cases hn : reported cs = []
    · have keep : ∀ (cs : List Call) (t : Info), Ready t → reported cs = [] →
          ∃ t', runAll t cs = .ok t' ∧ verdict t' = verdict t := by
        intro cs
        induction cs with
        | nil => intro t _ _; exact ⟨t, rfl, rfl⟩
        | cons c cs ih =>
          intro t h hr
          obtain ⟨t1, h1, h2, h3⟩ := step t h c
          cases c with
          | validation r => simp [reported] at hr
          | _ =>
            obtain ⟨t2, e1, e2⟩ := ih t1 h2 (by simpa [reported] using hr)
            exact ⟨t2, by simp only [runAll, h1, Res.bind_ok]; exact e1, by rw [e2, h3]⟩
      obtain ⟨t2, e1, e2⟩ := keep cs t1 h2 hn
      refine ⟨t2, e1, ?_⟩
      cases c with
      | validation r =>
        rw [e2, h3]
        simp only [reported, hn, List.mem_cons, List.not_mem_nil, or_false, forall_eq, Bool.and_eq_true,
          Bool.or_eq_true, beq_iff_eq]
      | _ => simp [reported, hn] at hr
    · obtain ⟨t2, e1, e2⟩ := ih t1 h2 hn
      refine ⟨t2, e1, ?_⟩
      rw [e2, h3]
      cases c with
      | validation r =>
        congr 1
        simp only [reported, List.mem_cons, forall_eq_or_imp]
        by_cases hv : r = true ∧ (verdict t = none ∨ verdict t = some (chars! "true"))
        · have : (r && (verdict t == none || verdict t == some (chars! "true"))) = true := by
            simp only [Bool.and_eq_true, Bool.or_eq_true, beq_iff_eq]; exact hv
          simp [this, hv.1, hv.2]
        · have : (r && (verdict t == none || verdict t == some (chars! "true"))) = false := by
            rw [Bool.eq_false_iff]; intro hx
            simp only [Bool.and_eq_true, Bool.or_eq_true, beq_iff_eq] at hx; exact hv hx
          rw [if_neg, if_neg]
          · rintro ⟨⟨a, _⟩, b⟩; exact hv ⟨a, b⟩
          · rintro ⟨_, b⟩; rw [this] at b; simp at b
      | _ => rfl

/-- C54: once a node shows a failing verdict no later sequence of log calls turns it into
    success. -/
theorem C54_failure_is_final (cs : List Call) (t : Info) (hf : verdict t = some (chars! "false")) :
    ∃ t', runAll t cs = .ok t' ∧ verdict t' = some (chars! "false") := by
  induction cs generalizing t with
  | nil => exact ⟨t, rfl, hf⟩
  | cons c cs ih =>
    have hr : Ready t := by
      unfold verdict at hf; unfold Ready
      cases hx : t.child? (chars! "valid") with
      | none => exact .inl rfl
      | some v => rw [hx] at hf; cases v <;> simp at hf ⊢
    obtain ⟨t1, h1, h2, h3⟩ := step t hr c
    have : verdict t1 = some (chars! "false") := by
      rw [h3]; cases c with
      | validation r => rw [hf]; simp
      | _ => exact hf
    obtain ⟨t2, e1, e2⟩ := ih t1 this
    exact ⟨t2, by simp only [runAll, h1, Res.bind_ok]; exact e1, e2⟩

example : ∃ t, runAll .empty [.validation true, .error (chars! "mesh") (chars! "bad"), .validation false] = .ok t ∧
    verdict t = some (chars! "false") :=
  ⟨.obj [(chars! "valid", .str (chars! "false")), (chars! "errors", .lst [.str (chars! "mesh: bad")])], rfl, rfl⟩

/-! ## C59 -/

mutual
/-- `P name node` for every node strictly below. -/
def Below (P : Str → Info → Prop) : Info → Prop
  | .obj es => BelowE P es
  | .lst cs => BelowL P cs
  | _ => True
def BelowE (P : Str → Info → Prop) : List (Str × Info) → Prop
  | [] => True
  | (k, c) :: es => (P k c ∧ Below P c) ∧ BelowE P es
def BelowL (P : Str → Info → Prop) : List Info → Prop
  | [] => True
  | c :: cs => (P [] c ∧ Below P c) ∧ BelowL P cs
end

mutual
private theorem remove_below (f : Str → Info → Bool) (name : Str) : (t : Info) →
    Below (fun k c => f k c = false) (removeTree f name t).1 ∧ (removeTree f name t).2 = f name (removeTree f name t).1
  | .obj es => by
    simp only [removeTree]
    split
    · exact ⟨trivial, rfl⟩
    · exact ⟨removeE_below f es, rfl⟩
  | .lst cs => by
    simp only [removeTree]
    split
    · exact ⟨trivial, rfl⟩
    · exact ⟨removeL_below f cs, rfl⟩
  | .empty => ⟨trivial, rfl⟩
  | .str s => ⟨trivial, rfl⟩
  | .other => ⟨trivial, rfl⟩
private theorem removeE_below (f : Str → Info → Bool) : (es : List (Str × Info)) →
    BelowE (fun k c => f k c = false) (removeEntries f es)
  | [] => trivial
  | (k, c) :: es => by
    simp only [removeEntries]
    obtain ⟨h1, h2⟩ := remove_below f k c
    split
    · exact removeE_below f es
    · rename_i h; exact ⟨⟨by show f _ _ = false; rw [← h2]; simpa using h, h1⟩, removeE_below f es⟩
private theorem removeL_below (f : Str → Info → Bool) : (cs : List Info) →
    BelowL (fun k c => f k c = false) (removeItems f cs)
  | [] => trivial
  | c :: cs => by
    simp only [removeItems]
    obtain ⟨h1, h2⟩ := remove_below f [] c
    split
    · exact removeL_below f cs
    · rename_i h; exact ⟨⟨by show f _ _ = false; rw [← h2]; simpa using h, h1⟩, removeL_below f cs⟩
end

mutual
private theorem below_mono {P Q : Str → Info → Prop} (h : ∀ k c, P k c → Q k c) : (t : Info) → Below P t → Below Q t
  | .obj es, ht => belowE_mono h es ht
  | .lst cs, ht => belowL_mono h cs ht
  | .empty, _ => trivial
  | .str _, _ => trivial
  | .other, _ => trivial
private theorem belowE_mono {P Q : Str → Info → Prop} (h : ∀ k c, P k c → Q k c) :
    (es : List (Str × Info)) → BelowE P es → BelowE Q es
  | [], _ => trivial
  | (k, c) :: es, ht => ⟨⟨h k c ht.1.1, below_mono h c ht.1.2⟩, belowE_mono h es ht.2⟩
private theorem belowL_mono {P Q : Str → Info → Prop} (h : ∀ k c, P k c → Q k c) :
    (cs : List Info) → BelowL P cs → BelowL Q cs
  | [], _ => trivial
  | c :: cs, ht => ⟨⟨h [] c ht.1.1, below_mono h c ht.1.2⟩, belowL_mono h cs ht.2⟩
end

private theorem isValid_iff (k : Str) (c : Info) :
    isValid k c = true ↔ c = .empty ∨ verdict c = some (chars! "true") := by
  cases c with
  | obj es =>
    simp only [isValid, verdict]
    cases hx : (Info.obj es).child? (chars! "valid") with
    | none => simp
    | some v => cases v <;> simp
  | _ => simp [isValid, verdict, Info.child?]

private theorem isInvalid_iff (k : Str) (c : Info) :
    isInvalid k c = true ↔ c = .empty ∨ verdict c = some (chars! "false") := by
  cases c with
  | obj es =>
    simp only [isInvalid, verdict]
    cases hx : (Info.obj es).child? (chars! "valid") with
    | none => simp
    | some v => cases v <;> simp
  | _ => simp [isInvalid, verdict, Info.child?]

private theorem isOptional_iff (k : Str) (c : Info) :
    isOptional k c = true ↔ c = .empty ∨ k = chars! "optional" := by
  cases c <;> simp [isOptional]

/-- C59: after `remove_valid` no node below the root is empty or shows `valid: "true"`. -/
theorem C59_remove_valid (t : Info) :
    Below (fun _ c => c ≠ .empty ∧ verdict c ≠ some (chars! "true")) (removeTree isValid [] t).1 :=
  below_mono (fun k c h => by
    exact not_or.1 (fun hx => by rw [(isValid_iff k c).2 hx] at h; cases h)) _ (remove_below isValid [] t).1

/-- C59: after `remove_invalid` no node below the root is empty or shows `valid: "false"`. -/
theorem C59_remove_invalid (t : Info) :
    Below (fun _ c => c ≠ .empty ∧ verdict c ≠ some (chars! "false")) (removeTree isInvalid [] t).1 :=
  below_mono (fun k c h => by
    exact not_or.1 (fun hx => by rw [(isInvalid_iff k c).2 hx] at h; cases h)) _ (remove_below isInvalid [] t).1

/-- C59: after `remove_optional` no node below the root is empty or called `optional`. -/
theorem C59_remove_optional (t : Info) :
    Below (fun k c => c ≠ .empty ∧ k ≠ chars! "optional") (removeTree isOptional [] t).1 :=
  below_mono (fun k c h => by
    exact not_or.1 (fun hx => by rw [(isOptional_iff k c).2 hx] at h; cases h)) _ (remove_below isOptional [] t).1

mutual
private theorem remove_id (f : Str → Info → Bool) (name : Str) : (t : Info) → f name t = false →
    Below (fun k c => f k c = false) t → removeTree f name t = (t, false)
  | .obj es, hf, hb => by simp only [removeTree, removeE_id f es hb, hf]; simp
  | .lst cs, hf, hb => by simp only [removeTree, removeL_id f cs hb, hf]; simp
  | .empty, hf, _ => by simp only [removeTree, hf]
  | .str s, hf, _ => by simp only [removeTree, hf]
  | .other, hf, _ => by simp only [removeTree, hf]
private theorem removeE_id (f : Str → Info → Bool) : (es : List (Str × Info)) →
    BelowE (fun k c => f k c = false) es → removeEntries f es = es
  | [], _ => rfl
  | (k, c) :: es, hb => by
    simp only [removeEntries, remove_id f k c hb.1.1 hb.1.2, removeE_id f es hb.2]; simp
private theorem removeL_id (f : Str → Info → Bool) : (cs : List Info) →
    BelowL (fun k c => f k c = false) cs → removeItems f cs = cs
  | [], _ => rfl
  | c :: cs, hb => by
    simp only [removeItems, remove_id f [] c hb.1.1 hb.1.2, removeL_id f cs hb.2]; simp
end

/-- C59: an info tree in which no node is empty or valid is left as it is by `remove_valid`. -/
theorem C59_remove_valid_keeps (t : Info) (h0 : t ≠ .empty ∧ verdict t ≠ some (chars! "true"))
    (h : Below (fun _ c => c ≠ .empty ∧ verdict c ≠ some (chars! "true")) t) :
    (removeTree isValid [] t).1 = t := by
  rw [remove_id isValid [] t]
  · rw [Bool.eq_false_iff]; exact fun hx => not_or.2 h0 ((isValid_iff [] t).1 hx)
  · refine below_mono (fun k c hc => ?_) t h
    rw [Bool.eq_false_iff]; exact fun hx => not_or.2 hc ((isValid_iff k c).1 hx)

/-- one failing and one passing check -/
def sampleInfo : Info :=
  .obj [(chars! "coords", .obj [(chars! "valid", .str (chars! "false")),
      (chars! "errors", .lst [.str (chars! "mesh: no values")])]),
    (chars! "topo", .obj [(chars! "valid", .str (chars! "true"))]),
    (chars! "valid", .str (chars! "false"))]

example : (removeTree isValid [] sampleInfo).1 =
    .obj [(chars! "coords", .obj [(chars! "valid", .str (chars! "false")),
      (chars! "errors", .lst [.str (chars! "mesh: no values")])]), (chars! "valid", .str (chars! "false"))] := rfl

/-- C59 does not extend to "every failing report is kept": a failing child below a node that
    passes is dropped with it (the FIXME of conduit_log.cpp:102-104). -/
theorem C59_failing_child_dropped :
    (removeTree isValid [] (.obj [(chars! "valid", .str (chars! "true")),
      (chars! "optional", .obj [(chars! "valid", .str (chars! "false"))])])).1 = .empty := rfl

end Conduit.Log

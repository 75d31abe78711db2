import Verif.Lemmas.MeshFiles5
/-
C86: sharing out domains over files.  C87: writing and reading them in parallel.
-/
namespace Conduit.Files

/-- `gen_domain_to_file_map` shares out the domains over the files evenly and in order. -/
theorem C86_shared (domains files : Nat) (h : 0 < files) : ∃ m, domainMap domains files = .ok m ∧ SharedOut domains files m := by
  obtain ⟨m, h1, h2, -⟩ := domainMap_shared domains h
  exact ⟨m, h1, h2⟩

/-- No file is left empty, unless there are more files than domains. -/
theorem C86_used (domains files : Nat) (h : 0 < files) (hle : files ≤ domains) :
    ∃ m, domainMap domains files = .ok m ∧ ∀ f < files, ∃ d : Nat, m.toFile[d]? = some f := by
  obtain ⟨m, h1, h2, h3⟩ := domainMap_shared domains h
  refine ⟨m, h1, fun f hf => ?_⟩
  have hp : m.perFile[f]? = some (share domains files f) := by
    rw [h3, perFile, List.getElem?_map, List.getElem?_range hf]; rfl
  have ho : f < m.offsets.length := by rw [h2.sizes.2]; exact hf
  refine ⟨_, (h2.block f _ _ _ (List.getElem?_eq_getElem ho) hp).2 ⟨Nat.le_refl _, Nat.lt_add_of_pos_right ?_⟩⟩
  have : 0 < domains / files := Nat.div_pos hle h
  unfold share
  split <;> omega

/-- Two answers are the same: what is said of the map determines it. -/
theorem C86_unique (domains files : Nat) (m m' : DomainMap) (h : SharedOut domains files m) (h' : SharedOut domains files m')
    (hp : m.perFile = m'.perFile) (ho : m.offsets = m'.offsets) : m = m' := by
  have : m.toFile = m'.toFile := by
    apply List.ext_getElem?
    intro d
    by_cases hd : d < domains
    · have hd1 : d < m.toFile.length := by rw [h.mapped]; exact hd
      have e := List.getElem?_eq_getElem hd1
      have hf := h.inFile d _ e
      have h1 : m.toFile[d] < m.perFile.length := by rw [h.sizes.1]; exact hf
      have h2 : m.toFile[d] < m.offsets.length := by rw [h.sizes.2]; exact hf
      have q := (h.block _ _ _ d (List.getElem?_eq_getElem h2) (List.getElem?_eq_getElem h1)).1 e
      rw [e]
      refine ((h'.block _ _ _ d ?_ ?_).2 q).symm
      · rw [← ho]; exact List.getElem?_eq_getElem h2
      · rw [← hp]; exact List.getElem?_eq_getElem h1
    · rw [List.getElem?_eq_none (by rw [h.mapped]; omega), List.getElem?_eq_none (by rw [h'.mapped]; omega)]
  cases m; cases m'
  simp only at this hp ho
  rw [this, hp, ho]

/-- With no files there is a division by zero. -/
theorem C86_none (domains : Nat) : domainMap domains 0 = .ub := rfl

/-- N domains to M files: whatever the domains each rank has, if they can all be written then every rank leaves the loop, after
    no more rounds than there are ranks and one; no two ranks are at work on a file in the same round; and in whatever order
    things happen within a round, each file holds at the end what it held (nothing if it was to be truncated) and exactly the
    domains that belong there, each once. -/
theorem C87_written (files : Nat) (trunc : Bool) (fails : Nat → Bool) (counts : List Nat) (hf : 0 < files) (hr : counts ≠ [])
    (hok : ∀ d < counts.sum, fails d = false) :
    ∃ m rounds, domainMap counts.sum files = .ok m ∧
      writeDomains files trunc fails counts (counts.length + 1) = .ok (some (.done, rounds)) ∧
      rounds.length ≤ counts.length + 1 ∧ (∀ ws ∈ rounds, ¬ Collide ws) ∧
      ∀ es, InRounds rounds es → ∀ (disk : Disk) f, Holds trunc m.toFile f (disk f) (es.foldl Disk.write disk f) := by
  obtain ⟨m, h1, h2, -⟩ := domainMap_shared counts.sum hf
  obtain ⟨rounds, e, q1, q2, q3⟩ := (twirl_spec (P := plan files trunc fails counts m h2)
    (List.length_pos_iff.2 hr) (counts.length + 1) (fun _ => counts.length) _ (start_at h2) (fun _ => Nat.lt_succ_self _)).2
    (fun hs => by
      obtain ⟨d, hd, hx⟩ := (stuck_iff h2).1 hs
      rw [hok d hd] at hx; cases hx)
  refine ⟨m, rounds, h1, ?_, q1, q2, fun es hes disk f => ?_⟩
  · rw [writeDomains, h1]
    exact congrArg Res.ok e
  · refine ⟨((plan files trunc fails counts m h2).seq counts.length f).map (·.2), seq_perm h2 f, ?_⟩
    rw [disk_filter, q3 es hes f, Plan.rest, tagAll_apply]
    have ht := not_touched (trunc := trunc) (fails := fails) h2 f
    rw [@decide_eq_false _ (Classical.propDecidable _) ht]
    by_cases c : (plan files trunc fails counts m h2).seq counts.length f = []
    · rw [if_pos c, if_pos (by rw [c]; rfl)]
    · have c' : ((plan files trunc fails counts m h2).seq counts.length f).map (·.2) ≠ [] := by simpa using c
      rw [if_neg c, if_neg c']
      simp [plan]

/-- If some domain cannot be written then every rank raises an error: none waits for another. -/
theorem C87_failed (files : Nat) (trunc : Bool) (fails : Nat → Bool) (counts : List Nat) (hf : 0 < files) (hr : counts ≠ [])
    (hbad : ∃ d < counts.sum, fails d = true) :
    ∃ rounds, writeDomains files trunc fails counts (counts.length + 1) = .ok (some (.raised, rounds)) := by
  obtain ⟨m, h1, h2, -⟩ := domainMap_shared counts.sum hf
  obtain ⟨rounds, e⟩ := (twirl_spec (P := plan files trunc fails counts m h2)
    (List.length_pos_iff.2 hr) (counts.length + 1) (fun _ => counts.length) _ (start_at h2) (fun _ => Nat.lt_succ_self _)).1
    ((stuck_iff h2).2 hbad)
  refine ⟨rounds, ?_⟩
  rw [writeDomains, h1]
  exact congrArg Res.ok e

/-- Any rounds can happen in some order. -/
theorem C87_possible (rounds : List Round) : ∃ es, InRounds rounds es := by
  have one : ∀ (n : Nat) (ls : List (List Write)), ls.flatten.length = n → ∃ es, Interleave ls es := by
    intro n
    induction n with
    | zero =>
      intro ls h
      refine ⟨[], .done fun l hl => ?_⟩
      have := List.flatten_eq_nil_iff.1 (List.eq_nil_of_length_eq_zero h)
      exact this l hl
    | succ n ih =>
      intro ls h
      obtain ⟨a, ha⟩ := List.exists_mem_of_ne_nil ls.flatten (fun e => by rw [e] at h; simp at h)
      obtain ⟨l, hl, hal⟩ := List.mem_flatten.1 ha
      obtain ⟨r, hr⟩ := List.getElem?_of_mem hl
      obtain ⟨hlt, e⟩ := List.getElem?_eq_some_iff.1 hr
      cases l with
      | nil => cases hal
      | cons b l =>
        have hs : (ls.set r l).flatten.length = n := by
          have h1 : ls = ls.take r ++ (b :: l) :: ls.drop (r + 1) := by
            rw [← e, ← List.drop_eq_getElem_cons hlt, List.take_append_drop]
          have h2 : ls.set r l = ls.take r ++ l :: ls.drop (r + 1) := by
            rw [List.set_eq_take_append_cons_drop, if_pos hlt]
          rw [h1] at h
          rw [h2]
          simp only [List.flatten_append, List.flatten_cons, List.length_append, List.length_cons] at h ⊢
          omega
        obtain ⟨es, hes⟩ := ih _ hs
        exact ⟨b :: es, .step r hr hes⟩
  induction rounds with
  | nil => exact ⟨[], .done⟩
  | cons ws ts ih =>
    obtain ⟨es, h⟩ := one _ ws rfl
    obtain ⟨es', h'⟩ := ih
    exact ⟨es ++ es', .round h h'⟩

/-- All domains to the root file: it holds at the end what it held (nothing if it was to be truncated) and then the domains in
    order, whatever the domains each rank has. -/
theorem C87_root (trunc : Bool) (counts : List Nat) (c : Option (List Nat)) (h : counts.sum ≠ 0) :
    (writeRoot trunc counts).foldl Session.apply c = some ((if trunc then [] else c.getD []) ++ List.range counts.sum) := by
  rw [writeRoot, rootTurns_spec, if_neg h, List.range_eq_range']
  simp

/-- `read_mesh` on several ranks: every domain is read by exactly one rank, no rank reads anything else, and no two ranks
    differ by more than one. -/
theorem C87_read (domains ranks : Nat) (h : 0 < ranks) :
    (∀ d < domains, ∃ r < ranks, ∀ q < ranks, (readRange domains ranks q).1 ≤ d ∧ d < (readRange domains ranks q).2 ↔ q = r) ∧
    (∀ r < ranks, (readRange domains ranks r).1 ≤ (readRange domains ranks r).2 ∧ (readRange domains ranks r).2 ≤ domains) ∧
    ∀ r < ranks, ∀ q < ranks, (readRange domains ranks r).2 - (readRange domains ranks r).1 ≤
      (readRange domains ranks q).2 - (readRange domains ranks q).1 + 1 := by
  refine ⟨fun d hd => ?_, fun r hr => ?_, fun r hr q hq => ?_⟩
  · obtain ⟨m, h1, h2, h3⟩ := domainMap_shared domains h
    obtain ⟨l1, l2⟩ := offsets_spec domains h
    obtain ⟨g, -, q2, q3, q4⟩ := assign_get h _ l2 0 0 domains (by omega) h (by simp [before]) (by omega) d hd
    rw [Nat.zero_add] at q3 q4
    refine ⟨g, q2, fun q hq => ?_⟩
    rw [readRange_eq hq]
    constructor
    · rintro ⟨h1, h2⟩
      exact before_unique h1 h2 q3 q4
    · rintro rfl
      exact ⟨q3, q4⟩
  · rw [readRange_eq hr]
    refine ⟨before_mono (Nat.le_succ r), ?_⟩
    have := before_mono (n := domains) (f := ranks) (show r + 1 ≤ ranks from hr)
    rwa [before_total h] at this
  · rw [readRange_eq hr, readRange_eq hq]
    simp only [before_succ]
    have : share domains ranks r ≤ share domains ranks q + 1 := by
      unfold share
      split <;> split <;> omega
    omega

/-! ### Examples -/

example : domainMap 7 3 = .ok ⟨[3, 2, 2], [0, 3, 5], [0, 0, 0, 1, 1, 2, 2]⟩ := by decide +kernel
/-- More files than domains. -/
example : domainMap 2 4 = .ok ⟨[1, 1, 0, 0], [0, 1, 2, 2], [0, 1]⟩ := by decide +kernel

/-- Four ranks, one without domains, and two files: the ranks take turns. -/
def exRounds : List Round :=
  [[[], [], [⟨2, 0, 3, true⟩], [⟨3, 1, 5, true⟩, ⟨3, 1, 6, false⟩]],
   [[⟨0, 0, 0, false⟩, ⟨0, 0, 1, false⟩, ⟨0, 0, 2, false⟩], [], [⟨2, 1, 4, false⟩], []],
   [[], [], [], []]]
example : writeDomains 2 true (fun _ => false) [3, 0, 2, 2] 5 = .ok (some (.done, exRounds)) := by decide +kernel
example : (exRounds.flatten.flatten.foldl Disk.write fun f => if f = 0 then some [9] else none) 0 = some [3, 0, 1, 2] ∧
    (exRounds.flatten.flatten.foldl Disk.write fun f => if f = 0 then some [9] else none) 1 = some [5, 6, 4] := by decide +kernel
/-- Domain 4 cannot be written. -/
example : (match writeDomains 2 true (· == 4) [3, 0, 2, 2] 5 with | .ok (some (e, _)) => some e | _ => none) = some .raised := by
  decide +kernel
example : writeRoot true [0, 2, 0, 1] = [⟨1, true, [0, 1]⟩, ⟨3, false, [2]⟩] := by decide +kernel
example : (List.range 3).map (readRange 7 3) = [(0, 3), (3, 5), (5, 7)] := by decide +kernel

end Conduit.Files

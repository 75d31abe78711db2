import Verif.Lemmas.MeshIO6
import Verif.Lemmas.MeshFiles5
/-
The files that are written (C88).
-/
namespace Conduit.MeshIO
open Conduit.Mesh

section
variable {F : Type}

/-! ### A file -/

theorem splitFile_nil {path : Str} (h : ':' ∉ path) : (splitFilePath path ':').2 = [] := by
  unfold splitFilePath
  rw [if_neg, splitString_not_mem h]
  intro hd
  unfold isDrive at hd
  simp only [Bool.and_eq_true, beq_iff_eq] at hd
  exact h (List.mem_of_getElem? hd.1.2)

theorem openFile_eq (fs : Disk F) {path : Str} (h : ':' ∉ path) {m : Mode} (hm : m ≠ .r) :
    openFile fs path m = .ok (if m.loads then (fs path).getD .empty else .empty) := by
  unfold openFile
  rw [if_neg (by rw [splitFile_nil h]; simp)]
  cases fs path with
  | some n => rfl
  | none => simp [hm]

theorem openFile_read {fs : Disk F} {path : Str} (h : ':' ∉ path) {n : BNode F} (hn : fs path = some n) :
    openFile fs path .r = .ok n := by
  unfold openFile
  rw [if_neg (by rw [splitFile_nil h]; simp), hn]; rfl

/-- What a file holds after a write. -/
def after (m : Mode) (segs : List Str) (d : BNode F) (c : Option (BNode F)) : BNode F :=
  alter d.update segs (if m.loads then c.getD .empty else .empty)

theorem writeAt_one (fs : Disk F) {file : Str} (h : ':' ∉ file) {m : Mode} (hm : m ≠ .r) {segs : List Str} (hs : segs ≠ [])
    (hg : ∀ s ∈ segs, GoodName s) (d : BNode F) :
    writeAt fs file m [(slash segs, d)] = .ok (fs.put file (after m segs d (fs file))) := by
  unfold writeAt
  rw [openFile_eq fs h hm]
  simp only [Res.bind_ok, List.foldlM_cons, List.foldlM_nil]
  rw [change_alter _ hs hg]
  rfl

theorem foldlM_writeAt {α : Type} (file : α → Str) (mode : α → Mode) (segs : α → List Str) (node : α → BNode F) (ws : List α)
    (h : ∀ w ∈ ws, ':' ∉ file w ∧ mode w ≠ .r ∧ segs w ≠ [] ∧ ∀ s ∈ segs w, GoodName s) (fs : Disk F) :
    ∃ fs', ws.foldlM (fun fs w => writeAt fs (file w) (mode w) [(slash (segs w), node w)]) fs = .ok fs' ∧
      ∀ f, fs' f = (ws.filter (file · == f)).foldl (fun c w => some (after (mode w) (segs w) (node w) c)) (fs f) := by
  induction ws generalizing fs with
  | nil => exact ⟨fs, rfl, fun _ => rfl⟩
  | cons w ws ih =>
    obtain ⟨h1, h2, h3, h4⟩ := h w List.mem_cons_self
    obtain ⟨fs', q1, q2⟩ := ih (fun x hx => h x (List.mem_cons_of_mem _ hx)) (fs.put (file w) (after (mode w) (segs w) (node w) (fs (file w))))
    refine ⟨fs', ?_, fun f => ?_⟩
    · rw [List.foldlM_cons, writeAt_one fs h1 h2 h3 h4]
      exact q1
    · rw [q2, List.filter_cons]
      by_cases e : file w = f
      · rw [if_pos (by simpa using e), List.foldl_cons]
        subst e
        simp [Disk.put]
      · rw [if_neg (by simpa using e), Disk.put, if_neg (Ne.symm e)]

/-! ### What a file holds after several writes -/

theorem foldlM_change (ws : List (List Str × BNode F)) (h : ∀ w ∈ ws, w.1 ≠ [] ∧ ∀ s ∈ w.1, GoodName s) (n : BNode F) :
    (ws.map fun w => (slash w.1, w.2)).foldlM (fun n w => change w.2.update n w.1) n = .ok (ws.foldl (fun n w => alter w.2.update w.1 n) n) := by
  induction ws generalizing n with
  | nil => rfl
  | cons w ws ih =>
    obtain ⟨h1, h2⟩ := h w List.mem_cons_self
    rw [List.map_cons, List.foldlM_cons, List.foldl_cons]
    dsimp only
    rw [change_alter _ h1 h2]
    exact ih (fun x hx => h x (List.mem_cons_of_mem _ hx)) _

theorem downOr_new {n : BNode F} {s : Str} (h : n.get s = .error) (r : List Str) : downOr n (s :: r) = .empty := by
  rw [downOr, getOrEmpty_error h, downOr_empty]

theorem built (ws : List (Str × List Str × BNode F)) (T0 : BNode F) (hn : (ws.map (·.1)).Nodup) (h0 : ∀ w ∈ ws, T0.get w.1 = .error)
    (hp : ∀ w ∈ ws, Plain w.2.2) :
    (∀ w ∈ ws, down (ws.foldl (fun n w => alter w.2.2.update (w.1 :: w.2.1) n) T0) (w.1 :: w.2.1) = .ok (tidy w.2.2)) ∧
    ∀ s, s ∉ ws.map (·.1) → (ws.foldl (fun n w => alter w.2.2.update (w.1 :: w.2.1) n) T0).get s = T0.get s := by
  induction ws generalizing T0 with
  | nil => exact ⟨fun _ h => absurd h List.not_mem_nil, fun _ _ => rfl⟩
  | cons a ws ih =>
    rw [List.map_cons, List.nodup_cons] at hn
    obtain ⟨i1, i2⟩ := ih (alter a.2.2.update (a.1 :: a.2.1) T0) hn.2 (fun w hw => by
      rw [get_alter_ne _ _ _ fun e => hn.1 (by rw [e]; exact List.mem_map_of_mem hw)]
      exact h0 w (List.mem_cons_of_mem _ hw)) (fun w hw => hp w (List.mem_cons_of_mem _ hw))
    rw [List.foldl_cons]
    refine ⟨fun w hw => ?_, fun s hs => ?_⟩
    · rcases List.mem_cons.1 hw with rfl | hw
      · rw [down, i2 _ hn.1]
        have := down_alter w.2.2.update (w.1 :: w.2.1) T0
        rw [downOr_new (h0 w List.mem_cons_self), update_empty _ (hp w List.mem_cons_self), down] at this
        exact this
      · exact i1 w hw
    · rw [List.map_cons, List.mem_cons, not_or] at hs
      rw [i2 s hs.2, get_alter_ne _ _ _ (Ne.symm hs.1)]

/-! ### One process -/

theorem interleave_flatten {α : Type} (pre : List (List α)) (hpre : ∀ l ∈ pre, l = []) (ls : List (List α)) :
    Files.Interleave (pre ++ ls) ls.flatten := by
  induction ls generalizing pre with
  | nil => exact .done (by simpa using hpre)
  | cons l ls ih =>
    induction l with
    | nil =>
      have := ih (pre ++ [[]]) (fun l hl => by
        rcases List.mem_append.1 hl with h | h
        · exact hpre l h
        · simpa using h)
      simpa using this
    | cons a l ih' =>
      rw [List.flatten_cons, List.cons_append]
      refine .step pre.length (l := l) (by simp) ?_
      rw [List.set_append_right _ _ (Nat.le_refl _)]
      simpa using ih'

theorem inRounds_flatten (rounds : List Files.Round) : Files.InRounds rounds rounds.flatten.flatten := by
  induction rounds with
  | nil => exact .done
  | cons r rs ih =>
    rw [List.flatten_cons, List.flatten_append]
    exact .round (interleave_flatten [] (by simp) r) ih

/-- What one process writes to each file when domains share files. -/
theorem writes_one {doms files : Nat} (hf : 0 < files) (trunc : Bool) :
    ∃ m rounds, Files.domainMap doms files = .ok m ∧ Files.SharedOut doms files m ∧
      Files.writeDomains files trunc (fun _ => false) [doms] 3 = .ok (some (.done, rounds)) ∧
      ∀ f, ∃ l : List (Nat × Nat), rounds.flatten.flatten.filter (·.file == f) = Files.tagAll f trunc l ∧
        List.Perm (l.map (·.2)) ((List.range doms).filter fun d => m.toFile[d]? = some f) := by
  have hs : [doms].sum = doms := by simp
  obtain ⟨m, h1, h2, -⟩ := Files.domainMap_shared [doms].sum hf
  obtain ⟨rounds, e, -, -, q3⟩ := (Files.twirl_spec (P := Files.plan files trunc (fun _ => false) [doms] m h2)
    (Nat.one_pos) 3 (fun _ => [doms].length) _ (Files.start_at h2) (fun _ => by simp)).2
    (fun hst => by
      obtain ⟨d, hd, hx⟩ := (Files.stuck_iff h2).1 hst
      cases hx)
  refine ⟨m, rounds, by rw [← h1, hs], by rw [hs] at h2; exact h2, ?_, fun f => ?_⟩
  · rw [Files.writeDomains, h1]
    exact congrArg Res.ok e
  · have hq := q3 _ (inRounds_flatten rounds) f
    have hperm := Files.seq_perm (trunc := trunc) (fails := fun _ => false) h2 f
    rw [h2.mapped, hs] at hperm
    refine ⟨_, ?_, hperm⟩
    rw [hq, Files.Plan.rest]
    have ht := Files.not_touched (trunc := trunc) (fails := fun _ => false) h2 f
    rw [@decide_eq_false _ (Classical.propDecidable _) ht]
    simp [Files.plan]

/-! ### All the domains -/

/-- Where a domain is: the file, and the names that lead to the mesh in it. -/
def place (p : Plan) (toFile : Nat → Nat) (i : Nat) : Str × List Str :=
  if p.rootOnly then (p.root, if p.doms = 1 then [] else [domainName i])
  else if p.doms = p.files then (p.dir ++ '/' :: (domainName i ++ chars! "." ++ p.protocol), [])
  else (p.dir ++ '/' :: (fileName (toFile i) ++ chars! "." ++ p.protocol), [domainName i])

/-- A plan that can be carried out. -/
structure PlanOk (p : Plan) : Prop where
  name : GoodName p.name ∧ p.name ∉ rootNames
  valid : p.name ≠ chars! "valid"
  files : 0 < p.files
  root : ':' ∉ p.root
  dir : p.rootOnly = false → p.dir ≠ [] ∧ p.dir.getLast? ≠ some '/' ∧ NoMarks p.dir ∧ p.root = p.dir ++ chars! ".root"
  protocol : NoMarks p.protocol ∧ '/' ∉ p.protocol
  few : p.files ≤ p.doms

/-- Files that are not there, or whose content does not matter. -/
def Fresh (p : Plan) (fs : Disk F) : Prop :=
  p.truncate = true ∨ fs p.root = none ∧ (p.rootOnly = false → ∀ f, fs (p.dir ++ '/' :: f) = none)

theorem joinFile {d : Str} (h1 : d ≠ []) (h2 : d.getLast? ≠ some '/') (r : Str) : joinFilePath d r = d ++ '/' :: r := by
  unfold joinFilePath
  rw [if_pos ⟨List.length_pos_iff.2 h1, h2⟩]; simp

theorem ext_cancel {a b c d e : Str} (h : a ++ '/' :: (b ++ c ++ d) = a ++ '/' :: (e ++ c ++ d)) : b = e := by
  have h := List.append_cancel_left h
  injection h with _ h
  exact List.append_cancel_right (List.append_cancel_right h)

theorem map_mapIdx {α β γ : Type} (l : List α) (f : Nat → α → β) (g : β → γ) : (l.mapIdx f).map g = l.mapIdx fun i a => g (f i a) := by
  apply List.ext_getElem?
  intro i
  simp only [List.getElem?_map, List.getElem?_mapIdx, Option.map_map]
  rfl

theorem zipIdx_filter {α : Type} (file : Nat → Str) (hinj : ∀ i j, file i = file j → i = j) (l : List α) (k i : Nat) (d : α) (hd : l[i]? = some d) :
    (l.zipIdx k).filter (fun w => file w.2 == file (k + i)) = [(d, k + i)] := by
  induction l generalizing k i with
  | nil => simp at hd
  | cons a l ih =>
    rw [List.zipIdx_cons, List.filter_cons]
    cases i with
    | zero =>
      simp only [List.getElem?_cons_zero, Option.some.injEq] at hd
      subst hd
      rw [if_pos (by simp)]
      have : (l.zipIdx (k + 1)).filter (fun w => file w.2 == file (k + 0)) = [] := by
        rw [List.filter_eq_nil_iff]
        intro w hw
        have := List.le_snd_of_mem_zipIdx hw
        simp only [beq_iff_eq]
        intro e
        have := hinj _ _ e
        omega
      rw [this]; rfl
    | succ i =>
      rw [if_neg]
      · have := ih (k + 1) i (by simpa using hd)
        rw [show k + 1 + i = k + (i + 1) by omega] at this
        exact this
      · simp only [beq_iff_eq]
        intro e
        have := hinj _ _ e
        omega

theorem tagAll_built (f : Nat) (trunc : Bool) (l : List (Nat × Nat)) (node : Nat → BNode F) (name : Str) (c : Option (BNode F))
    (hc : trunc = true ∨ c = none) (hl : l ≠ []) :
    (Files.tagAll f trunc l).foldl (fun c w => some (after (if w.trunc then .wt else .rwa) [domainName w.dom, name] (node w.dom) c)) c =
      some ((l.map fun x => (domainName x.2, [name], node x.2)).foldl (fun n w => alter w.2.2.update (w.1 :: w.2.1) n) .empty) := by
  have tail : ∀ (l : List (Nat × Nat)) (n : BNode F),
      (Files.tagAll f false l).foldl (fun c w => some (after (if w.trunc then .wt else .rwa) [domainName w.dom, name] (node w.dom) c)) (some n) =
      some ((l.map fun x => (domainName x.2, [name], node x.2)).foldl (fun n w => alter w.2.2.update (w.1 :: w.2.1) n) n) := by
    intro l
    induction l with
    | nil => intro n; rfl
    | cons x l ih =>
      intro n
      rw [Files.tagAll, List.foldl_cons, List.map_cons, List.foldl_cons, ih]
      rfl
  cases l with
  | nil => exact absurd rfl hl
  | cons x l =>
    rw [Files.tagAll, List.foldl_cons, List.map_cons, List.foldl_cons, tail]
    congr 3
    rcases hc with rfl | rfl
    · rfl
    · cases trunc <;> rfl

theorem writeDoms_spec {p : Plan} {ds : List (BNode F)} {fs : Disk F} (hok : PlanOk p) (hn : p.doms = ds.length) (hne : ds ≠ [])
    (hp : ∀ d ∈ ds, Plain d) (hfr : Fresh p fs) :
    ∃ toFile fs', (p.rootOnly = false → p.doms ≠ p.files → ∃ m, Files.domainMap p.doms p.files = .ok m ∧ m.toFile.length = p.doms ∧
        ∀ i < p.doms, m.toFile[i]? = some (toFile i)) ∧
      writeDoms p ds fs = .ok fs' ∧
      (∀ i d, ds[i]? = some d → ∃ T, fs' (place p toFile i).1 = some T ∧ down T ((place p toFile i).2 ++ [p.name]) = .ok (tidy d)) ∧
      (∀ f, (∀ i < ds.length, f ≠ (place p toFile i).1) → fs' f = fs f) ∧
      (p.rootOnly = true → ∃ T, fs' p.root = some T ∧ ∀ s ∈ rootNames, T.get s = .error) := by
  cases hr : p.rootOnly with
  | true =>
    -- all in the root file
    have hgood : ∀ w ∈ ds.mapIdx (fun i d => ((if p.doms = 1 then [p.name] else [domainName i, p.name]), d)),
        w.1 ≠ [] ∧ ∀ s ∈ w.1, GoodName s := by
      intro w hw
      obtain ⟨i, hi, rfl⟩ := List.mem_mapIdx.1 hw
      dsimp only
      split
      · simpa using hok.name.1
      · simpa using ⟨good_domainName i, hok.name.1⟩
    have hws : (ds.mapIdx fun i d => (if p.doms = 1 then p.name else domainName i ++ chars! "/" ++ p.name, d)) =
        (ds.mapIdx (fun i d => ((if p.doms = 1 then [p.name] else [domainName i, p.name]), d))).map fun w => (slash w.1, w.2) := by
      rw [map_mapIdx]
      congr 1
      funext i d
      split <;> simp [slash]
    let W : List (Str × List Str × BNode F) := ds.mapIdx fun i d => (if p.doms = 1 then p.name else domainName i, if p.doms = 1 then [] else [p.name], d)
    have hW : ∀ n : BNode F, (ds.mapIdx (fun i d => ((if p.doms = 1 then [p.name] else [domainName i, p.name]), d))).foldl (fun n w => alter w.2.update w.1 n) n =
        W.foldl (fun n w => alter w.2.2.update (w.1 :: w.2.1) n) n := by
      intro n
      have : ds.mapIdx (fun i d => ((if p.doms = 1 then [p.name] else [domainName i, p.name]), d)) = W.map fun w => (w.1 :: w.2.1, w.2.2) := by
        rw [map_mapIdx]
        congr 1
        funext i d
        split <;> rfl
      rw [this, List.foldl_map]
    have hstart : openFile fs p.root (if p.truncate then .wt else .rwa) = .ok .empty := by
      rw [openFile_eq fs hok.root (by split <;> simp)]
      rcases hfr with h | ⟨h, -⟩
      · rw [h]; rfl
      · rw [h]; split <;> rfl
    have hnod : (W.map (·.1)).Nodup := by
      rw [map_mapIdx]
      by_cases c : p.doms = 1
      · have : ds.length = 1 := by omega
        obtain ⟨d, rfl⟩ := List.length_eq_one_iff.1 this
        simp
      · rw [List.nodup_iff_pairwise_ne, List.pairwise_iff_getElem]
        intro i j hi hj hij
        simp only [List.getElem_mapIdx, if_neg c]
        intro e
        have := domainName_inj e
        omega
    obtain ⟨b1, b2⟩ := built W .empty hnod (fun _ _ => rfl) (fun w hw => by
      obtain ⟨i, hi, rfl⟩ := List.mem_mapIdx.1 hw
      exact hp _ (List.getElem_mem _))
    refine ⟨fun _ => 0, fs.put p.root (W.foldl (fun n w => alter w.2.2.update (w.1 :: w.2.1) n) .empty),
      fun h => absurd h (by simp), ?_, fun i d hd => ?_, fun f hf => ?_, fun _ => ?_⟩
    · rw [writeDoms, if_pos hr, writeAt, hstart, hws, Res.bind_ok, foldlM_change _ hgood, hW]; rfl
    · refine ⟨W.foldl (fun n w => alter w.2.2.update (w.1 :: w.2.1) n) .empty, ?_, ?_⟩
      · simp [place, hr, Disk.put]
      · obtain ⟨hi, rfl⟩ := List.getElem?_eq_some_iff.1 hd
        have := b1 _ (List.mem_mapIdx.2 ⟨i, hi, rfl⟩)
        dsimp only at this
        rw [← this]
        congr 1
        rw [place, if_pos hr]
        dsimp only
        split <;> rfl
    · rw [Disk.put, if_neg]
      have := hf 0 (List.length_pos_iff.2 hne)
      simpa [place, hr] using this
    · refine ⟨W.foldl (fun n w => alter w.2.2.update (w.1 :: w.2.1) n) .empty, by simp [Disk.put], fun s hs => ?_⟩
      rw [b2 s]
      · rfl
      · rw [map_mapIdx]
        intro h
        obtain ⟨i, hi, e⟩ := List.mem_mapIdx.1 h
        dsimp only at e
        split at e
        · exact hok.name.2 (by rw [e]; exact hs)
        · exact domainName_ne_root i hs e
  | false =>
    obtain ⟨d1, d2, d3, d4⟩ := hok.dir hr
    by_cases c : p.doms = p.files
    · -- a file for each domain
      let file : Nat → Str := fun i => p.dir ++ '/' :: (domainName i ++ chars! "." ++ p.protocol)
      have hinj : ∀ i j, file i = file j → i = j := fun i j e => domainName_inj (ext_cancel e)
      have hcol : ∀ i, ':' ∉ file i := fun i => (d3.append (NoMarks.cons (by decide)
        (((noMarks_domainName i).append (by unfold NoMarks; decide)).append hok.protocol.1))).1
      obtain ⟨fs', w1, w2⟩ := foldlM_writeAt (fun w : BNode F × Nat => file w.2) (fun _ => if p.truncate then Mode.wt else Mode.w)
        (fun _ => [p.name]) (fun w => w.1) ds.zipIdx (fun w _ => ⟨hcol w.2, by split <;> simp, by simp, by simpa using hok.name.1⟩) fs
      refine ⟨fun _ => 0, fs', fun _ h => absurd c h, ?_, fun i d hd => ?_, fun f hf => ?_, fun h => absurd h (by simp)⟩
      · rw [writeDoms, if_neg (by simp [hr]), if_pos c, ← w1]
        congr 1
        funext fs w
        rw [joinFile d1 d2]
        rfl
      · refine ⟨after (if p.truncate then .wt else .w) [p.name] d (fs (file i)), ?_, ?_⟩
        · have e : (place p (fun _ => 0) i).1 = file i := by simp [place, hr, c, file]
          rw [e, w2]
          have hz := zipIdx_filter file hinj ds 0 i d hd
          rw [Nat.zero_add] at hz
          rw [hz]; rfl
        · have e : (place p (fun _ => 0) i).2 ++ [p.name] = [p.name] := by simp [place, hr, c]
          have hl : (if p.truncate then Mode.wt else Mode.w).loads = false := by split <;> rfl
          rw [e, after, down_alter, hl, if_neg (by simp), downOr_empty, update_empty _ (hp d (List.mem_of_getElem? hd))]
      · rw [w2]
        have : ds.zipIdx.filter (fun w => file w.2 == f) = [] := by
          rw [List.filter_eq_nil_iff]
          intro w hw
          obtain ⟨-, hlt⟩ := List.mem_zipIdx hw
          have := hf w.2 (by omega)
          simp only [place, hr, c] at this
          simpa using fun e => this e.symm
        rw [this]; rfl
    · -- several domains in a file
      obtain ⟨m, rounds, m1, m2, m3, m4⟩ := writes_one (doms := p.doms) hok.files p.truncate
      let file : Nat → Str := fun k => p.dir ++ '/' :: (fileName k ++ chars! "." ++ p.protocol)
      have hinj : ∀ i j, file i = file j → i = j := fun i j e => fileName_inj (ext_cancel e)
      have hcol : ∀ i, ':' ∉ file i := fun i => (d3.append (NoMarks.cons (by decide)
        (((noMarks_fileName i).append (by unfold NoMarks; decide)).append hok.protocol.1))).1
      obtain ⟨fs', w1, w2⟩ := foldlM_writeAt (fun w : Files.Write => file w.file) (fun w => if w.trunc then Mode.wt else Mode.rwa)
        (fun w => [domainName w.dom, p.name]) (fun w => (ds[w.dom]?).getD .empty) rounds.flatten.flatten
        (fun w _ => ⟨hcol w.file, by split <;> simp, by simp, by simpa using ⟨good_domainName w.dom, hok.name.1⟩⟩) fs
      have hfil : ∀ k, rounds.flatten.flatten.filter (fun w => file w.file == file k) = rounds.flatten.flatten.filter (·.file == k) := by
        intro k
        apply List.filter_congr
        intro w _
        by_cases e : w.file = k
        · rw [e]; simp
        · have : file w.file ≠ file k := fun q => e (hinj _ _ q)
          rw [beq_eq_false_iff_ne.2 this, beq_eq_false_iff_ne.2 e]
      have hplace : ∀ i, (place p (fun i => m.toFile.getD i 0) i) = (file (m.toFile.getD i 0), [domainName i]) := by
        intro i; simp [place, hr, c, file]
      have hto : ∀ i < p.doms, m.toFile[i]? = some (m.toFile.getD i 0) := by
        intro i hi
        rw [List.getD_eq_getElem?_getD, List.getElem?_eq_getElem (by rw [m2.mapped]; exact hi)]; rfl
      refine ⟨fun i => m.toFile.getD i 0, fs', fun _ _ => ⟨m, m1, m2.mapped, hto⟩, ?_, fun i d hd => ?_, fun f hf => ?_,
        fun h => absurd h (by simp)⟩
      · rw [writeDoms, if_neg (by simp [hr]), if_neg c, m3, ← w1]
        dsimp only [Res.bind_ok]
        congr 1
        funext fs w
        rw [joinFile d1 d2]
        simp [file, slash]
      · have hi : i < ds.length := (List.getElem?_eq_some_iff.1 hd).1
        rw [hplace]
        obtain ⟨l, l1, l2⟩ := m4 (m.toFile.getD i 0)
        have hmem : i ∈ l.map (·.2) := by
          rw [l2.mem_iff, List.mem_filter, List.mem_range]
          exact ⟨by omega, by simpa using hto i (by omega)⟩
        have hlne : l ≠ [] := by rintro rfl; cases hmem
        have hlt : ∀ x ∈ l, x.2 < ds.length := by
          intro x hx
          have := l2.mem_iff.1 (List.mem_map_of_mem (f := (·.2)) hx)
          rw [List.mem_filter, List.mem_range] at this
          omega
        have hc : p.truncate = true ∨ fs (file (m.toFile.getD i 0)) = none := by
          rcases hfr with h | ⟨-, h⟩
          · exact .inl h
          · exact .inr (h hr _)
        obtain ⟨b1, -⟩ := built (l.map fun x => (domainName x.2, [p.name], (ds[x.2]?).getD .empty)) .empty (by
            rw [List.map_map]
            have : ((·.1) ∘ fun x : Nat × Nat => (domainName x.2, [p.name], (ds[x.2]?).getD (.empty : BNode F))) = domainName ∘ (·.2) := rfl
            rw [this, ← List.map_map]
            have hnd : (l.map (·.2)).Nodup := l2.nodup_iff.2 (List.nodup_range.filter _)
            rw [List.nodup_iff_pairwise_ne, List.pairwise_map]
            exact hnd.imp fun hab e => hab (domainName_inj e)) (fun _ _ => rfl) (fun w hw => by
            obtain ⟨x, hx, rfl⟩ := List.mem_map.1 hw
            have := hlt x hx
            dsimp only
            rw [List.getElem?_eq_getElem this]
            exact hp _ (List.getElem_mem _))
        refine ⟨(l.map fun x => (domainName x.2, [p.name], (ds[x.2]?).getD .empty)).foldl
          (fun n w => alter w.2.2.update (w.1 :: w.2.1) n) .empty, ?_, ?_⟩
        · dsimp only
          rw [w2, hfil, l1]
          exact tagAll_built _ _ l (fun k => (ds[k]?).getD .empty) p.name _ hc hlne
        · obtain ⟨x, hx, e⟩ := List.mem_map.1 hmem
          have := b1 _ (List.mem_map_of_mem hx)
          dsimp only at this
          rw [e, hd] at this
          exact this
      · rw [w2]
        have : rounds.flatten.flatten.filter (fun w => file w.file == f) = [] := by
          rw [List.filter_eq_nil_iff]
          intro w hw
          simp only [beq_iff_eq]
          intro e
          obtain ⟨l, l1, l2⟩ := m4 w.file
          have hw' : w ∈ Files.tagAll w.file p.truncate l := by rw [← l1, List.mem_filter]; exact ⟨hw, by simp⟩
          have hl : l ≠ [] := by rintro rfl; cases hw'
          obtain ⟨x, hx⟩ := List.exists_mem_of_ne_nil l hl
          have := l2.mem_iff.1 (List.mem_map_of_mem (f := (·.2)) hx)
          rw [List.mem_filter, List.mem_range] at this
          have q := hf x.2 (by omega)
          rw [hplace] at q
          have e2 : m.toFile.getD x.2 0 = w.file := by
            have := this.2
            simp only [decide_eq_true_eq] at this
            rw [List.getD_eq_getElem?_getD, this]; rfl
          rw [e2] at q
          exact q e.symm
        rw [this]; rfl

end
end Conduit.MeshIO

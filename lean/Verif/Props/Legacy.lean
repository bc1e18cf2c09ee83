import Verif.Props.Serial
import Verif.Model.Legacy

/-! Property theorems C81: `save` and `load` on paths, YAML headers. -/

namespace Ndt
open St

/-- no file but the header and the storages is left by `save`, whatever was in the directory before -/
theorem SaveTrace.run_others {d : Nat} {old : Option Dir} {hb : Bytes} {sb : Nat → Bytes} (t : SaveTrace d old hb sb) (s : String) :
    ∃ dir, runEffs old t.effects = some dir ∧ dir (.other s) = none := by
  refine ⟨fun f => (t.threads.map Prod.snd).foldl (fileEff f) (headDir hb f), ?_, ?_⟩
  · unfold effects
    rw [runEffs_append, runEffs_append, t.run_removal, t.run_header]
    refine runEffs_inside _ _ ?_
    intro e he
    obtain ⟨x, hx, rfl⟩ := List.mem_map.1 he
    rcases t.thread_eff x hx with h | ⟨bs, h⟩ <;> rw [h] <;> trivial
  · show (t.threads.map Prod.snd).foldl (fileEff (.other s)) (headDir hb (.other s)) = none
    rw [t.fold_threads (.other s) t.threads _ fun _ h => h]
    simp [headDir]

/-- The directory `root` exists and its files of a map (headers and storages) are those of `dir`. -/
structure FileSystem.Holds (v : PathVersion) (fs : FileSystem) (cwd : List String) (root : FPath) (dir : Dir) : Prop where
  path : root ≠ ⟨false, []⟩
  isDir : fs.isDir (root.locate cwd) = true
  header : fs.dirAt v cwd root .header = dir .header
  store : ∀ c, fs.dirAt v cwd root (.store c) = dir (.store c)
  yaml : fs.dirAt v cwd root (.other yamlName) = dir (.other yamlName)

theorem loadStores_congr {K P D M : Type} {io : Io K P} {d : Nat} {F : Fmt D} {rb : (Nat → List (Idx d × D)) → Option M} {canOpen : Nat → Bool} {sched : List Nat} {a b : Dir}
    (h : ∀ c, a (.store c) = b (.store c)) : loadStores io d F rb canOpen sched a = loadStores io d F rb canOpen sched b := by
  unfold loadStores
  have : (fun c => if canOpen c then readRecords io d F ((a (.store c)).getD []) else []) = fun c => if canOpen c then readRecords io d F ((b (.store c)).getD []) else [] := by
    funext c; rw [h]
  rw [this]

section
variable {d : Nat} {K P D M H : Type} (v : PathVersion) (io : Io K P) (F : Fmt D) (rb : Header K P d → (Nat → List (Idx d × D)) → Option M) (parse : Bytes → Option H)
  (ry : H → (Nat → List (Idx d × D)) → Option M) (canOpen : Nat → Bool) (sched : List Nat) (fs : FileSystem) (cwd : List String) (root : FPath)

theorem loadPath_eq (h1 : root ≠ ⟨false, []⟩) (h2 : fs.isDir (root.locate cwd) = true) (hs : ∀ c, c < 2 ^ d → (fs.dirAt v cwd root (.store c)).isSome = true)
    (hy : (fs.dirAt v cwd root (.other yamlName)).isSome = true) :
    loadPath v io d F rb parse ry canOpen sched fs cwd root =
      match (fs.file ((root.join v (root.join v (.file yamlName))).locate cwd)).bind parse with
      | none => .throws
      | some h => .returns (loadStores io d F (ry h) canOpen sched (fs.dirAt v cwd root)) := by
  have e1 : ((List.range (twoPow d)).all fun c => (fs.dirAt v cwd root (.store c)).isSome) = true := by
    rw [List.all_eq_true]; intro c hc; rw [List.mem_range, twoPow_eq] at hc; exact hs c hc
  have hy' : (fs.file ((root.join v (.file yamlName)).locate cwd)).isSome = true := hy
  unfold loadPath
  rw [if_pos ⟨h1, h2⟩]
  simp only [e1, if_true, hy']
  cases fs.file ((root.join v (root.join v (.file yamlName))).locate cwd) with
  | none => rfl
  | some bs => simp only [Option.bind_some]; cases parse bs <;> rfl

/-- **C81** (binary directories): a directory without the file `map.yaml` is loaded from the files directly in it, under every path that denotes it. -/
theorem loadPath_binary {dir : Dir} (hh : fs.Holds v cwd root dir) (hy : dir (.other yamlName) = none) :
    loadPath v io d F rb parse ry canOpen sched fs cwd root = .returns (loadDir io d F rb canOpen sched (some dir)) := by
  have hy' : fs.file ((root.join v (.file yamlName)).locate cwd) = none := by rw [← hy, ← hh.yaml]; rfl
  have hst : (fun c => (fs.dirAt v cwd root (.store c)).isSome) = fun c => (dir (.store c)).isSome := by funext c; rw [hh.store]
  unfold loadPath
  rw [if_pos ⟨hh.path, hh.isDir⟩]
  simp only [hst, hy', Option.isSome_none, Bool.false_eq_true, if_false]
  unfold loadDir
  simp only [hst, hh.header]
  split
  · cases dir .header with
    | none => rfl
    | some hb => simp only; rw [loadStores_congr hh.store]
  · rfl

end

/-! ### C81 -/
section
variable {d : Nat} {K P D H : Type} [Inhabited D] {g : Nat → Nat} {g' : Nat} {exp : D → Bool}

/-- **C81** (save and load under a path). After `save` of any non-empty reachable dynamic map, over any previous contents of the directory (also with a YAML header), `load` of the same directory under any path, with both versions of
the path library and any YAML parser, yields a map with the same visible state. -/
theorem C81_path_roundtrip (hd : 0 < d) (m : MapObj (octreeBackend d) K P D) (hR : MapReachable (.dynamic g g') exp m.st) (hne : m.st.bundleIndices ≠ [])
    (io : Io K P) (F : Fmt D) (hF : F.reported = F.codec.size) (hok : Storable io F m) (h : Header K P d) (hh : dynHeader m = some h)
    (old : Option Dir) (t : SaveTrace d old (headerBytes io h) (storeFiles io F m))
    (v : PathVersion) (fs : FileSystem) (cwd : List String) (root : FPath) (hfs : ∀ dir, runEffs old t.effects = some dir → fs.Holds v cwd root dir)
    (canOpen : Nat → Bool) (sched : List Nat) (hopen : ∀ c ∈ sched, canOpen c = true) (hj : (Threads.run canOpen sched).Joined (2 ^ d))
    (f : Nat → Nat) (f' : Nat) (junk : Nat → D) (parse : Bytes → Option H) (ry : H → (Nat → List (Idx d × D)) → Option (MapObj (octreeBackend d) K P D)) :
    ∃ m', loadPath v io d F (rebuildDynamic f f' junk) parse ry canOpen sched fs cwd root = .returns (.loaded m') ∧
      m'.pose = m.pose ∧ m'.resolution = m.resolution ∧ Spec.Restored m.st m'.st := by
  obtain ⟨m', y1, y2, y3, y4⟩ := C31_dynamic_roundtrip hd m hR hne io F hF hok h hh old t canOpen sched hopen hj f f' junk
  obtain ⟨dir, e1, e2⟩ := t.run_others yamlName
  refine ⟨m', ?_, y2, y3, y4⟩
  rw [loadPath_binary v io F _ parse ry canOpen sched fs cwd root (hfs dir e1) e2, ← e1, y1]

/-- **C81** (YAML headers, partial): if opening `root / (root / "map.yaml")` opens the file `map.yaml` of the directory, then a directory with the YAML header that `write` produces for any reachable dynamic map — also an empty one — and with its
storages is loaded to a map with the same visible state; a binary header in the directory is not looked at. -/
theorem C81_yaml_partial (hd : 0 < d) (m : MapObj (octreeBackend d) K P D) (hR : MapReachable (.dynamic g g') exp m.st)
    (io : Io K P) (F : Fmt D) (hF : F.reported = F.codec.size) (hok : ∀ c k x, m.st.content c k = some x → F.codec.Ok x)
    (emit : YamlHeader K P d → Bytes) (parse : Bytes → Option (YamlHeader K P d)) (hp : parse (emit (writeYaml m)) = some (writeYaml m))
    (v : PathVersion) (fs : FileSystem) (cwd : List String) (root : FPath) (dir : Dir) (hfs : fs.Holds v cwd root dir)
    (hy : dir (.other yamlName) = some (emit (writeYaml m))) (hs : ∀ c, c < 2 ^ d → dir (.store c) = some (storeFiles io F m c))
    (hsame : (root.join v (root.join v (.file yamlName))).locate cwd = (root.join v (.file yamlName)).locate cwd)
    (canOpen : Nat → Bool) (sched : List Nat) (hopen : ∀ c ∈ sched, canOpen c = true) (hj : (Threads.run canOpen sched).Joined (2 ^ d))
    (f : Nat → Nat) (f' : Nat) (junk : Nat → D) (rb : Header K P d → (Nat → List (Idx d × D)) → Option (MapObj (octreeBackend d) K P D)) :
    ∃ m', loadPath v io d F rb parse (rebuildYaml f f' junk) canOpen sched fs cwd root = .returns (.loaded m') ∧
      m'.pose = m.pose ∧ m'.resolution = m.resolution ∧ Spec.Restored m.st m'.st := by
  have hI : RInv (octreeLawful d) true m.st := hR.spec.1
  have hst : ∀ c, c < 2 ^ d → fs.dirAt v cwd root (.store c) = some (storeFiles io F m c) := fun c hc => (hfs.store c).trans (hs c hc)
  have hy' : fs.dirAt v cwd root (.other yamlName) = some (emit (writeYaml m)) := hfs.yaml.trans hy
  have e : fs.file ((root.join v (root.join v (.file yamlName))).locate cwd) = some (emit (writeYaml m)) := by rw [hsame]; exact hy'
  obtain ⟨r1, r2⟩ := joined_ran hopen hj
  have e2 : ((List.range (twoPow d)).all (Threads.run canOpen sched).ran) = true := by
    rw [List.all_eq_true]; intro c hc; rw [List.mem_range, twoPow_eq] at hc; exact r2 c hc
  obtain ⟨st', y1, y2, y3, _, _, y6⟩ := rebuild_restores (octreeLawful d) true m.st hI (fun c => Octree.Tree.empty (f c)) (Octree.Tree.empty f')
    (fun c => if canOpen c then readRecords io d F ((fs.dirAt v cwd root (.store c)).getD []) else []) junk (by
      intro c hc
      rw [if_pos (hopen c (joined_mem hj hc)), hst c hc, Option.getD_some, storeFiles_eq]
      exact readRecords_exact io hd F hF _ (records_ok io F m hR.spec.1 rfl hok c))
    (fun c => Octree.TInv.empty _) (fun c k => octree_look_empty _ k) (Octree.TInv.empty _) (fun k => octree_look_empty _ k)
    (by
      intro bi hb
      have := dyn_range hR.spec.1 bi hb
      exact ⟨decide_eq_true this.1, fun c hc => decide_eq_true (this.2 c hc)⟩)
    (by
      intro _ bi hb a
      have : Spec.InRange bi := of_decide_eq_true hb
      have := this a
      omega)
  refine ⟨⟨m.pose, m.resolution, st'⟩, ?_, rfl, rfl, y3⟩
  rw [loadPath_eq v io F rb parse _ canOpen sched fs cwd root hfs.path hfs.isDir (fun c hc => by rw [hst c hc]; rfl) (by rw [hy']; rfl), e]
  simp only [Option.bind_some, hp]
  unfold loadStores rebuildYaml
  simp only [r1, if_true, e2]
  have : rebuild (fun c => Octree.Tree.empty (f c)) (Octree.Tree.empty f') (fun c => if canOpen c then readRecords io d F ((fs.dirAt v cwd root (.store c)).getD []) else [])
      (writeYaml m).indices (writeYaml m).minB (writeYaml m).maxB junk = some st' := y1
  rw [this]
  rfl

end

section
variable {d : Nat} {K P D M H : Type}

/-- **C81** (YAML headers of static maps, partial): under the same condition on the path, a directory with a YAML header is loaded exactly like the directory with a binary header of the same contents. -/
theorem C81_yaml_static_partial (io : Io K P) (F : Fmt D) (rb : Header K P d → (Nat → List (Idx d × D)) → Option M) (parse : Bytes → Option (Header K P d)) (yb hb : Bytes) (h : Header K P d)
    (hp : parse yb = some h) (hr : readHeader io d hb = h)
    (v : PathVersion) (fs : FileSystem) (cwd : List String) (root : FPath) (dir : Dir) (hfs : fs.Holds v cwd root dir) (hy : dir (.other yamlName) = some yb)
    (hsame : (root.join v (root.join v (.file yamlName))).locate cwd = (root.join v (.file yamlName)).locate cwd) (canOpen : Nat → Bool) (sched : List Nat) :
    loadPath v io d F rb parse rb canOpen sched fs cwd root = .returns (loadDir io d F rb canOpen sched (some fun f => if f = .header then some hb else dir f)) := by
  have hy' : fs.file ((root.join v (.file yamlName)).locate cwd) = some yb := hfs.yaml.trans hy
  have hst : (fun c => (fs.dirAt v cwd root (.store c)).isSome) = fun c => (dir (.store c)).isSome := by funext c; rw [hfs.store]
  unfold loadPath loadDir
  rw [if_pos ⟨hfs.path, hfs.isDir⟩]
  simp only [hst, hy', hsame, Option.isSome_some, if_true, hp, hr, reduceCtorEq, if_false]
  split
  · congr 1
    refine loadStores_congr fun c => ?_
    rw [if_neg (by intro h; cases h)]
    exact hfs.store c
  · rfl

end

/-- the directory is `.`, or the path is absolute and version 4 of the path library is used: then the YAML header is found -/
theorem C81_same_file_partial (cwd : List String) (v : PathVersion) (s : String) :
    ((⟨false, ["."]⟩ : FPath).join v ((⟨false, ["."]⟩ : FPath).join v (.file s))).locate cwd = ((⟨false, ["."]⟩ : FPath).join v (.file s)).locate cwd ∧
    ∀ l, ((⟨true, l⟩ : FPath).join .v4 ((⟨true, l⟩ : FPath).join .v4 (.file s))).locate cwd = ((⟨true, l⟩ : FPath).join .v4 (.file s)).locate cwd := by
  refine ⟨by simp [FPath.join, FPath.locate, descend, FPath.file], fun l => ?_⟩
  simp [FPath.join, FPath.file]

/-- a component that is the name of a directory -/
def Plain (c : String) : Prop := c ≠ "" ∧ c ≠ "." ∧ c ≠ ".."

theorem foldl_descend : ∀ (l : List String) (dir : List String), (∀ c ∈ l, Plain c) → l.foldl descend dir = dir ++ l
  | [], dir, _ => (List.append_nil dir).symm
  | c :: l, dir, h => by
    obtain ⟨h1, h2, h3⟩ := h c List.mem_cons_self
    rw [List.foldl_cons, foldl_descend l _ fun x hx => h x (List.mem_cons_of_mem _ hx)]
    unfold descend
    rw [if_neg (by simp [h1, h2]), if_neg h3, List.append_assoc]
    rfl

/-- where `load` looks for the YAML header: in a directory below the one that is loaded -/
theorem locate_twice (v : PathVersion) (cwd : List String) (root : FPath) (hne : root.comps ≠ []) (hpl : ∀ c ∈ root.comps, Plain c) (hv : v = .v4 → root.absolute = false) :
    (root.join v (.file yamlName)).locate cwd = root.locate cwd ++ [yamlName] ∧
    (root.join v (root.join v (.file yamlName))).locate cwd = root.locate cwd ++ (root.comps ++ [yamlName]) := by
  have hpy : Plain yamlName := by unfold Plain yamlName; decide
  have h1 : root.join v (.file yamlName) = ⟨root.absolute, root.comps ++ [yamlName]⟩ := by
    unfold FPath.join; rw [if_neg (fun h => hne h.1), if_neg (by simp [FPath.file])]; rfl
  have h2 : root.join v (root.join v (.file yamlName)) = ⟨root.absolute, root.comps ++ (root.comps ++ [yamlName])⟩ := by
    rw [h1]
    unfold FPath.join
    rw [if_neg (fun h => hne h.1), if_neg]
    rintro ⟨e1, e2⟩
    have := hv e1
    simp only at e2
    rw [this] at e2; cases e2
  have hp1 : ∀ c ∈ root.comps ++ [yamlName], Plain c := by
    intro c hc
    rcases List.mem_append.1 hc with hc | hc
    · exact hpl c hc
    · rw [List.mem_singleton.1 hc]; exact hpy
  rw [h2, h1]
  unfold FPath.locate
  refine ⟨?_, ?_⟩
  · rw [foldl_descend _ _ hp1, foldl_descend _ _ hpl, List.append_assoc]
  · rw [List.foldl_append, foldl_descend _ _ hpl, foldl_descend _ _ hp1]

section
variable {d : Nat} {K P D M H : Type}

/-- **C81 refuted** (exception): with any path that names a directory (version 3: absolute or relative, version 4: relative), `load` of a complete directory with a YAML header throws, unless there is a file of the name `map.yaml` in a directory with the
same path below it. -/
theorem C81_yaml_throws_refuted (io : Io K P) (F : Fmt D) (rb : Header K P d → (Nat → List (Idx d × D)) → Option M) (parse : Bytes → Option H)
    (ry : H → (Nat → List (Idx d × D)) → Option M) (v : PathVersion) (fs : FileSystem) (cwd : List String) (root : FPath) (dir : Dir) (hfs : fs.Holds v cwd root dir)
    (hs : ∀ c, c < 2 ^ d → (dir (.store c)).isSome = true) (hy : (dir (.other yamlName)).isSome = true)
    (hne : root.comps ≠ []) (hpl : ∀ c ∈ root.comps, Plain c) (hv : v = .v4 → root.absolute = false)
    (hno : fs.file (root.locate cwd ++ (root.comps ++ [yamlName])) = none) (canOpen : Nat → Bool) (sched : List Nat) :
    loadPath v io d F rb parse ry canOpen sched fs cwd root = .throws := by
  rw [loadPath_eq v io F rb parse ry canOpen sched fs cwd root hfs.path hfs.isDir (fun c hc => by rw [hfs.store]; exact hs c hc) (by rw [hfs.yaml]; exact hy),
    (locate_twice v cwd root hne hpl hv).2, hno]
  rfl

/-- **C81 refuted** (the header is not read): with such a path, the contents of `map.yaml` have no influence on the result: two file systems that differ only in the contents of that file give the same result. -/
theorem C81_yaml_ignored_refuted (io : Io K P) (F : Fmt D) (rb : Header K P d → (Nat → List (Idx d × D)) → Option M) (parse : Bytes → Option H)
    (ry : H → (Nat → List (Idx d × D)) → Option M) (v : PathVersion) (fs fs' : FileSystem) (cwd : List String) (root : FPath)
    (hne : root.comps ≠ []) (hpl : ∀ c ∈ root.comps, Plain c) (hv : v = .v4 → root.absolute = false)
    (hd : fs'.isDir = fs.isDir) (hf : ∀ p, p ≠ root.locate cwd ++ [yamlName] → fs'.file p = fs.file p)
    (hy : (fs.file (root.locate cwd ++ [yamlName])).isSome = true) (hy' : (fs'.file (root.locate cwd ++ [yamlName])).isSome = true) (canOpen : Nat → Bool) (sched : List Nat) :
    loadPath v io d F rb parse ry canOpen sched fs' cwd root = loadPath v io d F rb parse ry canOpen sched fs cwd root := by
  obtain ⟨l1, l2⟩ := locate_twice v cwd root hne hpl hv
  have hstore : ∀ c, fs'.dirAt v cwd root (.store c) = fs.dirAt v cwd root (.store c) := by
    intro c
    refine hf _ ?_
    have hpc : Plain (FileName.store c).toString := by
      have : ∃ l, (FileName.store c).toString.toList = 's' :: l := ⟨_, by simp [FileName.toString]; rfl⟩
      obtain ⟨l, hl⟩ := this
      refine ⟨?_, ?_, ?_⟩ <;> intro h <;> rw [h] at hl <;> simp at hl
    have h1 : root.join v (.file (FileName.store c).toString) = ⟨root.absolute, root.comps ++ [(FileName.store c).toString]⟩ := by
      unfold FPath.join; rw [if_neg (fun h => hne h.1), if_neg (by simp [FPath.file])]; rfl
    rw [h1]
    unfold FPath.locate
    rw [List.foldl_append, foldl_descend [_] _ (by simpa using hpc)]
    intro h
    have := List.append_cancel_left h
    have : (FileName.store c).toString.toList = yamlName.toList := by rw [List.cons.inj this |>.1]
    simp [FileName.toString, yamlName] at this
  have hsec : fs'.file ((root.join v (root.join v (.file yamlName))).locate cwd) = fs.file ((root.join v (root.join v (.file yamlName))).locate cwd) := by
    rw [l2]
    refine hf _ fun h => ?_
    have := congrArg List.length (List.append_cancel_left h)
    have : root.comps.length = 0 := by simpa using this
    exact hne (List.length_eq_zero_iff.1 this)
  have hst : (fun c => (fs'.dirAt v cwd root (.store c)).isSome) = fun c => (fs.dirAt v cwd root (.store c)).isSome := by funext c; rw [hstore]
  unfold loadPath
  simp only [hd, hst, hsec, l1, hy, hy', if_true]
  split
  · split
    · cases fs.file ((root.join v (root.join v (.file yamlName))).locate cwd) with
      | none => rfl
      | some bs =>
        simp only
        cases parse bs with
        | none => rfl
        | some h => simp only; rw [loadStores_congr hstore]
    · rfl
  · rfl

end
/-! ### Non-vacuity of C81 -/

open Classical in
/-- a file system with nothing but one directory with the files of a map -/
noncomputable def FileSystem.ofDir (base : List String) (dir : Dir) : FileSystem where
  isDir p := decide (p = base)
  file p := if p = base ++ ["map.bin"] then dir .header else if p = base ++ [yamlName] then dir (.other yamlName)
    else if h : ∃ c, p = base ++ [(FileName.store c).toString] then dir (.store h.choose) else none

theorem storeName_injective {c c' : Nat} (h : (FileName.store c).toString = (FileName.store c').toString) : c = c' := by
  have h1 : (FileName.store c).toString.toList = (FileName.store c').toString.toList := by rw [h]
  simp only [FileName.toString, String.toList_append] at h1
  have h2 := List.append_cancel_left (List.append_cancel_right h1)
  rw [Nat.toList_repr, Nat.toList_repr] at h2
  rw [← Nat.ofDigitChars_ten_toDigits (n := c), h2, Nat.ofDigitChars_ten_toDigits]

theorem storeName_plain (c : Nat) : Plain (FileName.store c).toString ∧ (FileName.store c).toString ≠ "map.bin" ∧ (FileName.store c).toString ≠ yamlName := by
  have : ∃ l, (FileName.store c).toString.toList = 's' :: l := ⟨_, by simp [FileName.toString]; rfl⟩
  obtain ⟨l, hl⟩ := this
  refine ⟨⟨?_, ?_, ?_⟩, ?_, ?_⟩ <;> intro h <;> rw [h] at hl <;> simp [yamlName] at hl

/-- for every directory named by components, such a file system holds the given files -/
theorem FileSystem.ofDir_holds (v : PathVersion) (cwd : List String) (root : FPath) (hne : root.comps ≠ []) (hpl : ∀ c ∈ root.comps, c = "." ∨ Plain c) (dir : Dir) :
    (FileSystem.ofDir (root.locate cwd) dir).Holds v cwd root dir := by
  have hloc : ∀ s, Plain s → (root.join v (.file s)).locate cwd = root.locate cwd ++ [s] := by
    intro s hs
    have h1 : root.join v (.file s) = ⟨root.absolute, root.comps ++ [s]⟩ := by
      unfold FPath.join; rw [if_neg (fun h => hne h.1), if_neg (by simp [FPath.file])]; rfl
    rw [h1]
    unfold FPath.locate
    rw [List.foldl_append, foldl_descend [s] _ (by simpa using hs)]
  have hinj : ∀ s s', root.locate cwd ++ [s] = root.locate cwd ++ [s'] → s = s' := fun s s' h => (List.cons.inj (List.append_cancel_left h)).1
  refine ⟨fun h => hne (by rw [h]), by simp [ofDir], ?_, ?_, ?_⟩
  · show (FileSystem.ofDir _ dir).file ((root.join v (.file "map.bin")).locate cwd) = _
    rw [hloc _ (by unfold Plain; decide)]
    simp [ofDir]
  · intro c
    obtain ⟨n1, n2, n3⟩ := storeName_plain c
    show (FileSystem.ofDir _ dir).file ((root.join v (.file (FileName.store c).toString)).locate cwd) = _
    rw [hloc _ n1]
    have hex : ∃ c', root.locate cwd ++ [(FileName.store c).toString] = root.locate cwd ++ [(FileName.store c').toString] := ⟨c, rfl⟩
    unfold FileSystem.ofDir
    simp only
    rw [if_neg (fun h => n2 (hinj _ _ h)), if_neg (fun h => n3 (hinj _ _ h)), dif_pos hex]
    rw [← storeName_injective (hinj _ _ hex.choose_spec)]
  · show (FileSystem.ofDir _ dir).file ((root.join v (.file yamlName)).locate cwd) = _
    rw [hloc _ (by unfold Plain yamlName; decide)]
    have : ¬ root.locate cwd ++ [yamlName] = root.locate cwd ++ ["map.bin"] := fun h => by have := hinj _ _ h; revert this; unfold yamlName; decide
    show (if _ then _ else if _ then _ else _) = _
    rw [if_neg this, if_pos rfl]

/-- the files of a map with a YAML header -/
def yamlDir (yb : Bytes) (sb : Nat → Bytes) : Dir
  | .header => none
  | .store c => some (sb c)
  | .other s => if s = yamlName then some yb else none

/-- C81 applies: a reachable 2D map with several bundles, saved over a directory that contains a YAML header, loaded under the relative path `maps/./a`. -/
example : ∃ (st : St (octreeBackend 2) Nat) (h : Header Nat Nat 2) (old : Option Dir) (t : SaveTrace 2 old (headerBytes pcIo h) (storeFiles pcIo (distFmt (natCodec 8)) ⟨3, 7, st⟩)) (fs : FileSystem)
    (m' : MapObj (octreeBackend 2) Nat Nat Nat), (∃ dir, old = some dir ∧ (dir (.other yamlName)).isSome = true) ∧
    (∀ dir, runEffs old t.effects = some dir → fs.Holds .v3 ["home"] ⟨false, ["maps", ".", "a"]⟩ dir) ∧
    loadPath .v3 pcIo 2 (distFmt (natCodec 8)) (rebuildDynamic (fun _ => 0) 0 (fun _ => 77)) (fun _ => (none : Option Unit)) (fun _ _ => none) (fun _ => true) [3, 3, 3, 2, 2, 2, 1, 1, 1, 0, 0, 0] fs ["home"]
      ⟨false, ["maps", ".", "a"]⟩ = .returns (.loaded m') ∧ m'.st.content 3 ![1, 0] = some 12 := by
  obtain ⟨st, h1, h2, h3, h4⟩ := sample_saved (fun _ => 5) 9
  obtain ⟨h, hh⟩ := Option.isSome_iff_exists.1 (C31_header_defined (K := Nat) (P := Nat) ⟨3, 7, st⟩ h1 h2)
  have hst : Storable pcIo (distFmt (natCodec 8)) (⟨3, 7, st⟩ : MapObj (octreeBackend 2) Nat Nat Nat) := by
    refine ⟨?_, ?_, fun c k x hx => h4 c k x hx⟩
    · show (3 : Nat) < 256 ^ 24; norm_num
    · show (7 : Nat) < 256 ^ 8; norm_num
  let old : Option Dir := some fun f => if f = .other yamlName then some [1, 2, 3] else none
  let t := SaveTrace.inOrder 2 old (headerBytes pcIo h) (storeFiles pcIo (distFmt (natCodec 8)) ⟨3, 7, st⟩) [.other yamlName] (fun dir f e he => by
    have e : (fun f => if f = .other yamlName then some [1, 2, 3] else none) = dir := Option.some.inj e
    subst e
    by_cases hf : f = .other yamlName
    · rw [hf]; exact List.mem_cons_self
    · simp [hf] at he)
  obtain ⟨dir, hdir, _⟩ := t.run_all
  have hfs : ∀ dir', runEffs old t.effects = some dir' → (FileSystem.ofDir (FPath.locate ["home"] ⟨false, ["maps", ".", "a"]⟩) dir).Holds .v3 ["home"] ⟨false, ["maps", ".", "a"]⟩ dir' := by
    intro dir' e
    rw [hdir] at e; cases e
    exact FileSystem.ofDir_holds _ _ _ (by decide) (by unfold Plain; decide) _
  obtain ⟨m', y1, _, _, y4⟩ := C81_path_roundtrip (by decide) ⟨3, 7, st⟩ h1 h2 pcIo (distFmt (natCodec 8)) rfl hst h hh old t .v3 _ ["home"] ⟨false, ["maps", ".", "a"]⟩ hfs
    (fun _ => true) [3, 3, 3, 2, 2, 2, 1, 1, 1, 0, 0, 0] (fun _ _ => rfl)
    (by intro c hc
        have : c = 0 ∨ c = 1 ∨ c = 2 ∨ c = 3 := by omega
        rcases this with rfl | rfl | rfl | rfl <;> decide)
    (fun _ => 0) 0 (fun _ => 77) (fun _ => (none : Option Unit)) (fun _ _ => none)
  exact ⟨st, h, old, t, _, m', ⟨_, rfl, rfl⟩, hfs, y1, by rw [y4.contents, h3]⟩

/-- C81 (YAML) applies: the same map with a YAML header, loaded from the working directory. -/
example : ∃ (st : St (octreeBackend 2) Nat) (fs : FileSystem) (m' : MapObj (octreeBackend 2) Nat Nat Nat),
    loadPath .v3 pcIo 2 (distFmt (natCodec 8)) (fun _ _ => none) (fun _ => some (writeYaml (⟨3, 7, st⟩ : MapObj (octreeBackend 2) Nat Nat Nat))) (rebuildYaml (fun _ => 0) 0 (fun _ => 77)) (fun _ => true)
      [3, 3, 3, 2, 2, 2, 1, 1, 1, 0, 0, 0] fs ["home"] ⟨false, ["."]⟩ = .returns (.loaded m') ∧ m'.st.content 3 ![1, 0] = some 12 := by
  obtain ⟨st, h1, h2, h3, h4⟩ := sample_saved (fun _ => 5) 9
  obtain ⟨m', y1, _, _, y4⟩ := C81_yaml_partial (by decide) ⟨3, 7, st⟩ h1 pcIo (distFmt (natCodec 8)) rfl (fun c k x hx => h4 c k x hx)
    (fun _ => [7]) (fun _ => some (writeYaml (⟨3, 7, st⟩ : MapObj (octreeBackend 2) Nat Nat Nat))) rfl
    .v3 _ ["home"] ⟨false, ["."]⟩ (yamlDir [7] (storeFiles pcIo (distFmt (natCodec 8)) ⟨3, 7, st⟩)) (FileSystem.ofDir_holds _ _ _ (by decide) (by unfold Plain; decide) _)
    rfl (fun _ _ => rfl) (C81_same_file_partial ["home"] .v3 yamlName).1
    (fun _ => true) [3, 3, 3, 2, 2, 2, 1, 1, 1, 0, 0, 0] (fun _ _ => rfl)
    (by intro c hc
        have : c = 0 ∨ c = 1 ∨ c = 2 ∨ c = 3 := by omega
        rcases this with rfl | rfl | rfl | rfl <;> decide)
    (fun _ => 0) 0 (fun _ => 77) (fun _ _ => none)
  exact ⟨st, _, m', y1, by rw [y4.contents, h3]⟩

/-- C81 refuted: the same kind of directory under the absolute path `/maps/a`, version 3 of the path library. -/
example (sb : Nat → Bytes) (yb : Bytes) : loadPath (M := Unit) .v3 pcIo 2 (distFmt (natCodec 8)) (fun _ _ => some ()) (fun _ => some ()) (fun _ _ => some ()) (fun _ => true)
    [3, 3, 3, 2, 2, 2, 1, 1, 1, 0, 0, 0] (FileSystem.ofDir ["maps", "a"] (yamlDir yb sb)) ["home"] ⟨true, ["maps", "a"]⟩ = .throws := by
  refine C81_yaml_throws_refuted pcIo (distFmt (natCodec 8)) _ _ _ .v3 _ ["home"] ⟨true, ["maps", "a"]⟩ (yamlDir yb sb) (FileSystem.ofDir_holds .v3 ["home"] ⟨true, ["maps", "a"]⟩ (by decide) (by unfold Plain; decide) _)
    (fun _ _ => rfl) rfl (by decide) (by unfold Plain; decide) (by decide) ?_ _ _
  unfold FileSystem.ofDir
  simp only
  rw [if_neg (by decide), if_neg (by decide), dif_neg]
  rintro ⟨c, hc⟩
  have := congrArg List.length hc
  simp [FPath.locate, descend] at this

/-- C81 (static maps) applies: any header, any storages, loaded from the working directory. -/
example (h : Header Nat Nat 2) (hb yb : Bytes) (hr : readHeader pcIo 2 hb = h) (sb : Nat → Bytes) (sched : List Nat) :
    loadPath .v4 pcIo 2 (distFmt (natCodec 8)) (rebuildStatic fun _ => 77) (fun bs => if bs = yb then some h else none) (rebuildStatic fun _ => 77) (fun _ => true) sched
      (FileSystem.ofDir (FPath.locate ["home"] ⟨false, ["."]⟩) (yamlDir yb sb)) ["home"] ⟨false, ["."]⟩ =
    .returns (loadDir pcIo 2 (distFmt (natCodec 8)) (rebuildStatic fun _ => 77) (fun _ => true) sched (some fun f => if f = .header then some hb else yamlDir yb sb f)) :=
  C81_yaml_static_partial pcIo (distFmt (natCodec 8)) (rebuildStatic fun _ => 77) (fun bs => if bs = yb then some h else none) yb hb h (if_pos rfl) hr .v4 _ ["home"] ⟨false, ["."]⟩ (yamlDir yb sb)
    (FileSystem.ofDir_holds _ _ _ (by decide) (by unfold Plain; decide) _) rfl (C81_same_file_partial ["home"] .v4 yamlName).1 _ sched

/-- C81 refuted (the header is not read): two directories with the same storages and different YAML headers. -/
example (sb : Nat → Bytes) (sched : List Nat) : loadPath (M := Nat) .v3 pcIo 2 (distFmt (natCodec 8)) (fun _ _ => none) (fun bs => some bs.length) (fun n _ => some n) (fun _ => true) sched
      (FileSystem.ofDir ["maps", "a"] (yamlDir [1] sb)) ["home"] ⟨true, ["maps", "a"]⟩ =
    loadPath (M := Nat) .v3 pcIo 2 (distFmt (natCodec 8)) (fun _ _ => none) (fun bs => some bs.length) (fun n _ => some n) (fun _ => true) sched
      (FileSystem.ofDir ["maps", "a"] (yamlDir [1, 2, 3] sb)) ["home"] ⟨true, ["maps", "a"]⟩ := by
  have hy : ∀ yb : Bytes, ((FileSystem.ofDir ["maps", "a"] (yamlDir yb sb)).file ["maps", "a", yamlName]).isSome = true := by
    intro yb
    have : (FileSystem.ofDir ["maps", "a"] (yamlDir yb sb)).dirAt .v3 ["home"] ⟨true, ["maps", "a"]⟩ (.other yamlName) = some yb :=
      (FileSystem.ofDir_holds .v3 ["home"] ⟨true, ["maps", "a"]⟩ (by decide) (by unfold Plain; decide) (yamlDir yb sb)).yaml.trans rfl
    have e : (FileSystem.ofDir ["maps", "a"] (yamlDir yb sb)).file ["maps", "a", yamlName] = some yb := this
    rw [e]; rfl
  refine C81_yaml_ignored_refuted pcIo (distFmt (natCodec 8)) _ _ _ .v3 _ _ ["home"] ⟨true, ["maps", "a"]⟩ (by decide) (by unfold Plain; decide) (by decide) rfl ?_ (hy _) (hy _) _ _
  intro p hp
  have hp' : ¬ p = ["maps", "a"] ++ [yamlName] := hp
  unfold FileSystem.ofDir
  simp only [if_neg hp']

end Ndt

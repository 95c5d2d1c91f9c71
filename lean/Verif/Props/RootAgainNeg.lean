import Verif.Props.RootAgain
import Verif.Props.PipeAgain
/-
C80, the exception: the table of a configuration is new with every build, and its description shows it.
-/
namespace V8.Root
open V8.Brace V8.Enc V8.JsonText V8.Header V8.Store V8.Tree V8.Embed
open V8.Nested hiding Env Handler
open V8.Object hiding Cls
open V8.Product (getAt setAt getAt_append setAt_getAt Options)
open V8.Misc (Cls)

/-- a folder of a configuration has the table of the container in the entry `versions` of Configuration.json -/
theorem table_shown {e : Env} {H : Text → Option Handler} {ver : Text} {F : Text → Option Store.Node} {n : Nat} {info : Info} {dir : Dir}
    (hx : extractProduct e H .config ver F n = some (info, dir)) :
    ∃ src subs b j v, dir = .mk (nodes src) subs ∧ folder src "Configuration.json".toList = some b ∧ readFile b = some j ∧
      need F "versions".toList = some v ∧ entry j "versions".toList = some (jsonOf v) := by
  unfold extractProduct at hx
  simp only [Option.bind_eq_some_iff] at hx
  obtain ⟨⟨info', os, src⟩, hroot, subs, hsubs, hx⟩ := hx
  by_cases hnod : (subs.map (fun s => (s.1, s.2.1))).Nodup
  case neg => rw [if_neg hnod] at hx; cases hx
  rw [if_pos hnod] at hx
  cases hx
  obtain ⟨root, fu, v, hd, h', h1, b, ps, t, g1, g2, g3, g4, g5, g6, g7, g8, g9, rfl⟩ := rootOut_some hroot
  obtain ⟨r1, r2, r3, r4⟩ := description_read (ver := ver) (t := t) g7 (decode_names g5)
  obtain ⟨front, other, compat, vb, parts, k1, k2, k3, k4, k5, rfl⟩ := besideOut_some g7
  simp only [otherOut, Option.bind_eq_some_iff, Option.map_eq_some_iff] at k2
  obtain ⟨v1, _, v2, hv2, rfl⟩ := k2
  refine ⟨_, _, _, _, v2, rfl, ?_, r1, hv2, r2 ("versions".toList, some (jsonOf v2)) ?_⟩
  · exact folder_place _ _ _ (by rw [r4]; exact sources_nodup .config) (List.mem_append_right _ List.mem_cons_self)
  · exact mem_after (List.mem_append_left _ (List.mem_append_left _ (List.mem_cons_of_mem _ List.mem_cons_self)))

/-- **C80, the exception.**  Two containers of a configuration with the same sources have the same table `versions`: as every build makes the table anew, with new random
identifiers, `Configuration.json` is another file after every build. -/
theorem C80_same_table {e : Env} {H : Text → Option Handler} {ver : Text} {F F' : Text → Option Store.Node} {n : Nat} {info info' : Info} {dir : Dir}
    (hx : extractProduct e H .config ver F n = some (info, dir)) (hx' : extractProduct e H .config ver F' n = some (info', dir)) :
    need F' "versions".toList = need F "versions".toList := by
  obtain ⟨src, subs, b, j, v, rfl, h1, h2, h3, h4⟩ := table_shown hx
  obtain ⟨src', subs', b', j', v', he, h1', h2', h3', h4'⟩ := table_shown hx'
  have hn : nodes src = nodes src' := (V8.Tree.Dir.mk.injEq .. ▸ he).1
  have hf : folder src' "Configuration.json".toList = folder src "Configuration.json".toList := by
    rw [← fileIn_folder, ← fileIn_folder src, hn]
  rw [hf, h1] at h1'
  cases h1'
  rw [h2] at h2'
  cases h2'
  rw [h4] at h4'
  have := Option.some.inj h4'
  have hv : some v = some v' := by rw [← valOf_jsonOf v, this, valOf_jsonOf]
  rw [h3, h3', hv]

/-- **C80, the exception, two builds.**  Containers of two builds of a configuration with different random identifiers have different sources. -/
theorem C80_new_ids_neg {e : Env} {H : Text → Option Handler} {ver : Text} {F F' : Text → Option Store.Node} {n : Nat} {info info' : Info} {dir dir' : Dir} {win : Bool}
    {rnd rnd' : Nat → Text} {names names' : List Text} (hi : ∀ i, V8.Pipe.TokenFit (rnd i)) (hi' : ∀ i, V8.Pipe.TokenFit (rnd' i)) (hn : ∀ m ∈ names, V8.Pipe.NameFit m)
    (hn' : ∀ m ∈ names', V8.Pipe.NameFit m) (hl : names.length + 1 < 10 ^ 64) (hl' : names'.length + 1 < 10 ^ 64)
    (hF : F "versions".toList = some (.file (braceFile win (versionsTree rnd names)))) (hF' : F' "versions".toList = some (.file (braceFile win (versionsTree rnd' names'))))
    (hx : extractProduct e H .config ver F n = some (info, dir)) (hx' : extractProduct e H .config ver F' n = some (info', dir')) (hr : rnd 0 ≠ rnd' 0) : dir ≠ dir' := by
  rintro rfl
  have h := C80_same_table hx hx'
  rw [need_file hF (fun h => by unfold versionsTree at h; cases h) (V8.Pipe.versions_wf hi hn hl),
    need_file hF' (fun h => by unfold versionsTree at h; cases h) (V8.Pipe.versions_wf hi' hn' hl')] at h
  unfold versionsTree rootVal at h
  simp only [List.map_cons, List.map_nil, Option.some.injEq, Val.list.injEq, List.cons.injEq, Val.str.injEq] at h
  exact hr h.1.2.2.2.1.symm

end V8.Root

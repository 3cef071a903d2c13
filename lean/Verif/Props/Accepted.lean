import Verif.Proof.Accepted
import Verif.Proof.ServerCases
import Verif.Props.Editor
import Verif.Props.Written

/-
Accepted completions are calls of the offered commands (C73).
-/

namespace Brack

/-! ### C73 -/

/-- C73 (partial): when an opening bracket is typed, every item listed, if it is accepted and arguments (or
nothing) are typed where the cursor is left, makes the call of an offered command with these arguments. Missing:
names with characters that mean something in documents or snippets (`C73_names_refuted`). -/
theorem C73_accepted_partial (X : ServerEnv) (s : Server) (msg : Json) (id : Int) (md : PluginsMetadata) (trigger : Str)
    (typ : PType) (b : Bracket) (w : World) (hw : w.Healthy)
    (hm : msg.IsRequest id (chars! "textDocument/completion"))
    (hp : X.P.completion (msg.index (chars! "params")) = some (some (some trigger))) (hs : s.project = some md)
    (hl : AllLoadable X.W w md)
    (htr : (trigger, typ, b) ∈ [(chars! "[", PType.inline, Bracket.square), (chars! "{", PType.block, Bracket.curly)]) :
    ∃ (reply : Json) (items : List SeenItem), (Server.dispatch X s msg w).1 = .ok s ∧
      w.Said X.P (Server.dispatch X s msg w).2 [reply] ∧ reply.IsReply (.int id) ∧ reply.seenItems = some items ∧
      (∀ plugin command, Offers X.W w md typ plugin command → ∃ item ∈ items, item.label = plugin ++ '.' :: command) ∧
      ∀ item ∈ items, ∃ plugin command, Offers X.W w md typ plugin command ∧ item.label = plugin ++ '.' :: command ∧
        (plainName plugin = true → plainName command = true → ∀ args, args ≠ [] →
          ∃ t, item.accepted (Markup.writeArgs args) = some t ∧
            trigger ++ t = (Markup.call b plugin command args).write) := by
  have hclose : trigger = [b.openChar] ∧
      (trigger, typ, [b.closeChar]) ∈ [(chars! "[", PType.inline, chars! "]"), (chars! "{", PType.block, chars! "}")] := by
    simp only [List.mem_cons, Prod.mk.injEq, List.not_mem_nil, or_false] at htr
    rcases htr with ⟨rfl, rfl, rfl⟩ | ⟨rfl, rfl, rfl⟩ <;> decide
  obtain ⟨reply, commands, h1, h2, h3, _, h4, h5⟩ :=
    C55_listed_partial X s msg id md trigger typ [b.closeChar] w hw hm hp hs hl hclose.2
  refine ⟨reply, _, h1, h2, h3, h5, ?_, ?_⟩
  · intro plugin command ho
    exact ⟨_, List.mem_map.2 ⟨_, (h4 plugin command).2 ho, rfl⟩, by simp⟩
  · intro item hi
    obtain ⟨⟨plugin, command⟩, hc, rfl⟩ := List.mem_map.1 hi
    refine ⟨plugin, command, (h4 _ _).1 hc, by simp, fun g1 g2 args ha => ⟨_, accepted_item g1 g2, ?_⟩⟩
    rw [hclose.1, Markup.write, if_neg (by simpa using ha)]
    simp

/-- C73: read as part of a line, wherever it is inserted, this is the call of this command. -/
theorem C73_reads (S : Segmenter) (ids : Nat → Str) (before after : List Markup) (b : Bracket) (plugin command : Str)
    (args : List (List Markup)) (trigger t : Str)
    (ht : trigger ++ t = (Markup.call b plugin command args).write)
    (hok : Markup.okL false (before ++ .call b plugin command args :: after) = true)
    (ho : OwnClusters S (Markup.writeL before ++ trigger ++ t ++ Markup.writeL after)) :
    ∃ a, Reads S ids (Markup.writeL before ++ trigger ++ t ++ Markup.writeL after) a [] ∧
      a.shape = .node .document [.node .stmt [.node .expr (Markup.shapeL before ++
        .node (.bracket b) (.leaf .module (some plugin) :: .leaf .ident (some command) ::
          (if onlyBlanks args then [] else Markup.shapeArgs args)) :: Markup.shapeL after)]] := by
  have hw : ∀ is js : List Markup, Markup.writeL (is ++ js) = Markup.writeL is ++ Markup.writeL js := by
    intro is js
    induction is with
    | nil => rfl
    | cons i is ih => simp [Markup.writeL, ih]
  have hsh : ∀ is js : List Markup, Markup.shapeL (is ++ js) = Markup.shapeL is ++ Markup.shapeL js := by
    intro is js
    induction is with
    | nil => rfl
    | cons i is ih => simp [Markup.shapeL, ih]
  have e : Markup.writeL before ++ trigger ++ t ++ Markup.writeL after =
      writeLines [before ++ .call b plugin command args :: after] ++ List.replicate 0 '\n' := by
    rw [List.append_assoc (Markup.writeL before), ht]
    simp [writeLines, hw, Markup.writeL]
  rw [e] at ho ⊢
  obtain ⟨a, h1, h2⟩ := C72_reads S ids _ _ (.last [before ++ .call b plugin command args :: after] 0 (by
    simp [paragraphOk, hok])) ho
  refine ⟨a, h1, ?_⟩
  rw [h2]
  simp [documentShape, hsh, Markup.shapeL, Markup.shape]

/-- C73: an offered command can be called: it is one of the commands of the plugins loaded from these files. -/
theorem C73_callable {W : Wasm} (md : PluginsMetadata) (w w' : World) (plugins : List (Plugin W)) (ps : Plugins W)
    (typ : PType) (plugin command : Str) (hl : AllLoadable W w md) (h1 : loadPlugins W md w = (.ok plugins, w'))
    (h2 : Plugins.new plugins = .ok ps) (ho : Offers W w md typ plugin command) :
    ∃ ts, ps.signature plugin command typ = some ts :=
  offered_signature hl h1 h2 ho

/-- The command `std.g` accepted, with two arguments typed, and with nothing typed. -/
example : SeenItem.accepted ⟨chars! "std.g", chars! "std.g $0]", true⟩ (chars! "a,b") = some (chars! "std.g a,b]") ∧
    ['['] ++ chars! "std.g a,b]" = (Markup.call .square (chars! "std") ['g'] [[.words ['a']], [.words ['b']]]).write ∧
    SeenItem.accepted ⟨chars! "std.g", chars! "std.g $0]", true⟩ [] = some (chars! "std.g ]") ∧
    ['['] ++ chars! "std.g ]" = (Markup.call .square (chars! "std") ['g'] [[]]).write ∧
    Markup.okL false [.words ['x'], .call .square (chars! "std") ['g'] [[]], .words ['y']] = true := by decide

/-- The hypotheses are met by the sample project, and the names are plain. -/
example : ∃ (reply : Json) (items : List SeenItem),
    (workspace []).Said sampleProtocol (Server.dispatch (sampleServerEnv sampleWasm) sampleServer
      (requestJson 7 (chars! "textDocument/completion") (completionParams ['{'])) (workspace [])).2 [reply] ∧
    reply.seenItems = some items ∧ (∃ item ∈ items, item.label = chars! "std.h") ∧
    plainName (chars! "std") = true ∧ plainName (chars! "h") = true := by
  obtain ⟨reply, items, _, h1, _, h2, h3, _⟩ := C73_accepted_partial (sampleServerEnv sampleWasm) sampleServer
    (requestJson 7 (chars! "textDocument/completion") (completionParams ['{'])) 7 _ ['{'] .block .curly
    (workspace []) (workspace_healthy _) (requestJson_is (by decide) _ _) rfl rfl (workspace_loadable _) (by decide)
  refine ⟨reply, items, h1, h2, h3 (chars! "std") (chars! "h") ?_, by decide, by decide⟩
  exact ⟨_, _, [1], _, List.mem_singleton.mpr rfl, rfl, rfl, by decide⟩

/-- A plugin with commands whose names have characters that mean something: a space, a dollar sign. -/
def oddNames : Wasm := { sampleWasm with
  metadata := fun n => (.ok [⟨chars! "a b", chars! "call_ab", [], .inline⟩, ⟨chars! "a$b", chars! "call_a_b", [], .inline⟩,
    ⟨chars! "a", chars! "call_a", [(chars! "x", .inline)], .inline⟩], n) }

theorem oddNames_loadable (text : Str) :
    AllLoadable oddNames (workspace text) [(chars! "std", (chars! "plugins/std_00.wasm", noHooks))] where
  names := by decide
  files := by
    intro x hx
    rw [List.mem_singleton.mp hx]
    exact ⟨[1], _, rfl, rfl, fun k h => absurd h (by cases k <;> decide)⟩
  hooks := by
    intro k x hx y hy _ _
    rw [List.mem_singleton.mp hx, List.mem_singleton.mp hy]

/-- C73 does not hold for all names: the command `a b` is offered, but accepting it makes the call of the
command `a` with the argument `b`; what is inserted for `a$b` is not that name. -/
theorem C73_names_refuted : ∃ (W : Wasm) (w : World) (md : PluginsMetadata) (reply : Json) (items : List SeenItem),
    AllLoadable W w md ∧ Offers W w md .inline (chars! "std") (chars! "a b") ∧
    Offers W w md .inline (chars! "std") (chars! "a$b") ∧
    w.Said sampleProtocol (Server.dispatch (sampleServerEnv W) ⟨true, some md⟩
      (requestJson 7 (chars! "textDocument/completion") (completionParams ['['])) w).2 [reply] ∧
    reply.seenItems = some items ∧
    (∃ item ∈ items, item.label = chars! "std.a b" ∧ item.accepted [] = some (chars! "std.a b ]") ∧
      ['['] ++ chars! "std.a b ]" =
        (Markup.call .square (chars! "std") (chars! "a") [[.words ['b'], .blank ' ']]).write ∧
      Markup.ok false (.call .square (chars! "std") (chars! "a") [[.words ['b'], .blank ' ']]) = true) ∧
    ∃ item ∈ items, item.label = chars! "std.a$b" ∧ item.accepted [] = none := by
  have hl := oddNames_loadable []
  have o1 : Offers oddNames (workspace []) [(chars! "std", (chars! "plugins/std_00.wasm", noHooks))] .inline
      (chars! "std") (chars! "a b") := ⟨_, _, [1], _, List.mem_singleton.mpr rfl, rfl, rfl, by decide⟩
  have o2 : Offers oddNames (workspace []) [(chars! "std", (chars! "plugins/std_00.wasm", noHooks))] .inline
      (chars! "std") (chars! "a$b") := ⟨_, _, [1], _, List.mem_singleton.mpr rfl, rfl, rfl, by decide⟩
  obtain ⟨reply, commands, _, h1, _, _, h2, h3⟩ := C55_listed_partial (sampleServerEnv oddNames)
    ⟨true, some [(chars! "std", (chars! "plugins/std_00.wasm", noHooks))]⟩
    (requestJson 7 (chars! "textDocument/completion") (completionParams ['['])) 7 _ ['['] .inline (chars! "]")
    (workspace []) (workspace_healthy _) (requestJson_is (by decide) _ _) rfl rfl hl (by decide)
  refine ⟨oddNames, workspace [], _, reply, _, hl, o1, o2, h1, h3, ?_, ?_⟩
  · exact ⟨_, List.mem_map.2 ⟨_, (h2 _ _).2 o1, rfl⟩, by decide⟩
  · exact ⟨_, List.mem_map.2 ⟨_, (h2 _ _).2 o2, rfl⟩, by decide⟩

end Brack

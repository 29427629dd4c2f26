import Verif.Tpl.Tac
import Verif.Dot.Model
import Mathlib.Data.List.Basic
/-
C65, continued: the text of the DOT output is what the template engine makes of templates/dot.tpl.
-/
namespace Verif.Dot
open Verif.Dfcxx Verif.Tpl

/-- /repo/src/model/dfcxx/templates/dot.tpl, whole. -/
def template : String :=
"{{#LICENSE}}
{{!===---------------------------------------------------------------------===}}
{{!                                                                           }}
{{! Part of the Utopia HLS Project, under the Apache License v2.0             }}
{{! SPDX-License-Identifier: Apache-2.0                                       }}
{{! Copyright 2024-2025 ISP RAS (http://www.ispras.ru)                        }}
{{!                                                                           }}
{{!===---------------------------------------------------------------------===}}
{{/LICENSE}}// This file has been automatically generated by Utopia HLS at {{GEN_TIME}}.
digraph {{KERNEL_NAME}} {
  {{#ELEMENTS}}{{NAME}} [shape={{SHAPE}}, label=\"{{LABEL}}\"]
  {{#CONNECTIONS}}{{SRC_NAME}} -> {{TRG_NAME}} [label=\"{{CON_LABEL}}\"]
  {{/CONNECTIONS}}
  {{/ELEMENTS}}
}
"

/-- One `CONNECTIONS` dictionary (kernel.cpp:147-151). -/
def connDict (src trg label : String) : Dict :=
  .mk [("SRC_NAME", src.toList), ("TRG_NAME", trg.toList), ("CON_LABEL", label.toList)] []

/-- The dictionaries of the connections at the head of a list of statements. -/
def connDicts : List Stmt → List Dict
  | .conn src trg label :: rest => connDict src trg label :: connDicts rest
  | _ => []

/-- The `ELEMENTS` dictionaries (kernel.cpp:108-152): one for each element, with those of its connections, which follow it. -/
def elemDicts : List Stmt → List Dict
  | [] => []
  | .elem name shape label :: rest =>
    .mk [("NAME", name.toList), ("SHAPE", shape.toList), ("LABEL", label.toList)]
      (if connDicts rest = [] then [] else [("CONNECTIONS", connDicts rest)]) :: elemDicts rest
  | .conn .. :: rest => elemDicts rest

/-- The dictionary at kernel.cpp:155. -/
def dict (kernel time : String) (stmts : List Stmt) : Dict :=
  .mk [("GEN_TIME", time.toList), ("KERNEL_NAME", kernel.toList)] (if elemDicts stmts = [] then [] else [("ELEMENTS", elemDicts stmts)])

def parsed : List Node := [
  .sec "LICENSE" [.text "\n\n\n\n\n\n\n\n".toList],
  .text "// This file has been automatically generated by Utopia HLS at ".toList, .var "GEN_TIME", .text ".\ndigraph ".toList, .var "KERNEL_NAME",
  .text " {\n  ".toList,
  .sec "ELEMENTS" [.var "NAME", .text " [shape=".toList, .var "SHAPE", .text ", label=\"".toList, .var "LABEL", .text "\"]\n  ".toList,
    .sec "CONNECTIONS" [.var "SRC_NAME", .text " -> ".toList, .var "TRG_NAME", .text " [label=\"".toList, .var "CON_LABEL", .text "\"]\n  ".toList],
    .text "\n  ".toList],
  .text "\n}\n".toList]

theorem parse_template : parse template.toList = some parsed := by kernel_parse

/-- The text of the connections at the head. -/
def connTexts : List Stmt → List Char
  | .conn src trg label :: rest => (Stmt.conn src trg label).text.toList ++ connTexts rest
  | _ => []

/-- The text of the elements, without connections at the head. -/
def elemTexts : List Stmt → List Char
  | [] => []
  | .elem name shape label :: rest => (Stmt.elem name shape label).text.toList ++ connTexts rest ++ "\n  ".toList ++ elemTexts rest
  | .conn .. :: rest => elemTexts rest

theorem bodyText_eq : ∀ (rest : List Stmt) (s : Stmt), (bodyText (s :: rest)).toList = s.text.toList ++ connTexts rest ++ "\n  ".toList ++ elemTexts rest := by
  intro rest
  induction rest with
  | nil => intro s; simp [bodyText, lastOfElem, connTexts, elemTexts]
  | cons r rest ih =>
    intro s
    rw [bodyText, String.toList_append, String.toList_append, ih r]
    cases r with
    | elem name shape label => simp [lastOfElem, connTexts, elemTexts]
    | conn src trg label => simp [lastOfElem, connTexts, elemTexts]

theorem expand_conns (a b c : List Char) (ds : List Dict) (ha : a = " -> ".toList) (hb : b = " [label=\"".toList) (hc : c = "\"]\n  ".toList) (stmts : List Stmt) :
    ((connDicts stmts).flatMap fun d => expandAll (d :: ds) [.var "SRC_NAME", .text a, .var "TRG_NAME", .text b, .var "CON_LABEL", .text c]) =
      connTexts stmts := by
  induction stmts with
  | nil => rfl
  | cons s rest ih =>
    cases s with
    | elem => rfl
    | conn src trg label =>
      have h1 : valueIn "SRC_NAME" (connDict src trg label :: ds) = src.toList := by simp [valueIn, connDict, Dict.vals]
      have h2 : valueIn "TRG_NAME" (connDict src trg label :: ds) = trg.toList := by simp [valueIn, connDict, Dict.vals, List.lookup]
      have h3 : valueIn "CON_LABEL" (connDict src trg label :: ds) = label.toList := by simp [valueIn, connDict, Dict.vals, List.lookup]
      rw [connDicts, List.flatMap_cons, ih, connTexts]
      simp only [expandAll, expand, h1, h2, h3, Stmt.text, String.toList_append, ha, hb, hc, List.append_nil, List.append_assoc]

theorem expand_elems (a b c d : List Char) (x y z : List Char) (e : Dict) (ha : a = " [shape=".toList) (hb : b = ", label=\"".toList)
    (hc : c = "\"]\n  ".toList) (hd : d = "\n  ".toList) (hx : x = " -> ".toList) (hy : y = " [label=\"".toList) (hz : z = "\"]\n  ".toList)
    (he : e.secs.lookup "CONNECTIONS" = none) (stmts : List Stmt) :
    ((elemDicts stmts).flatMap fun q => expandAll [q, e] [.var "NAME", .text a, .var "SHAPE", .text b, .var "LABEL", .text c,
      .sec "CONNECTIONS" [.var "SRC_NAME", .text x, .var "TRG_NAME", .text y, .var "CON_LABEL", .text z], .text d]) = elemTexts stmts := by
  induction stmts with
  | nil => rfl
  | cons s rest ih =>
    cases s with
    | conn src trg label => exact ih
    | elem name shape label =>
      rw [elemDicts, List.flatMap_cons, ih, elemTexts]
      generalize hq : Dict.mk [("NAME", name.toList), ("SHAPE", shape.toList), ("LABEL", label.toList)]
        (if connDicts rest = [] then [] else [("CONNECTIONS", connDicts rest)]) = q
      have h1 : valueIn "NAME" [q, e] = name.toList := by rw [← hq]; simp [valueIn, Dict.vals]
      have h2 : valueIn "SHAPE" [q, e] = shape.toList := by rw [← hq]; simp [valueIn, Dict.vals, List.lookup]
      have h3 : valueIn "LABEL" [q, e] = label.toList := by rw [← hq]; simp [valueIn, Dict.vals, List.lookup]
      have h4 : secIn "CONNECTIONS" [q, e] = connDicts rest := by
        rw [← hq]
        simp only [secIn, Dict.secs]
        split
        · rename_i v hv
          split at hv
          · cases hv
          · simpa using hv.symm
        · rename_i hv
          split at hv
          · rename_i h; rw [h]; rw [Dict.secs.eq_def] at he; cases e; simp only at he; simp [he]
          · simp at hv
      have h5 := expand_conns x y z [q, e] hx hy hz rest
      have h6 : expand [q, e] (.sec "CONNECTIONS" [.var "SRC_NAME", .text x, .var "TRG_NAME", .text y, .var "CON_LABEL", .text z]) = connTexts rest := by
        rw [expand, h4]; exact h5
      rw [expandAll, expandAll, expandAll, expandAll, expandAll, expandAll, expandAll, expandAll, expandAll, h6]
      simp only [expand, h1, h2, h3, Stmt.text, String.toList_append, ha, hb, hc, hd, List.append_nil, List.append_assoc]

/-- **C65, the template.**  The text of the DOT output is the expansion of dot.tpl with the dictionaries that `compileDot` fills. -/
theorem dotText_is_template (w : World) (kernel time : String) (nodes : List Nat) (h : ∀ src trg label rest, dotStmts w nodes ≠ .conn src trg label :: rest) :
    (dotText w kernel time nodes).toList = render template.toList (dict kernel time (dotStmts w nodes)) := by
  rw [render_eq parse_template]
  generalize hs : dotStmts w nodes = stmts at h
  generalize hq : dict kernel time stmts = q
  have h1 : valueIn "GEN_TIME" [q] = time.toList := by rw [← hq]; simp [valueIn, dict, Dict.vals]
  have h2 : valueIn "KERNEL_NAME" [q] = kernel.toList := by rw [← hq]; simp [valueIn, dict, Dict.vals, List.lookup]
  have h3 : secIn "ELEMENTS" [q] = elemDicts stmts := by
    rw [← hq]
    simp only [secIn, dict, Dict.secs]
    by_cases e : elemDicts stmts = [] <;> simp [e]
  have h4 : secIn "LICENSE" [q] = [] := by
    rw [← hq]
    simp only [secIn, dict, Dict.secs]
    by_cases e : elemDicts stmts = [] <;> simp [e, List.lookup]
  have h5 : q.secs.lookup "CONNECTIONS" = none := by
    rw [← hq]
    simp only [dict, Dict.secs]
    by_cases e : elemDicts stmts = [] <;> simp [e, List.lookup]
  have h6 := expand_elems _ _ _ _ _ _ _ q rfl rfl rfl rfl rfl rfl rfl h5 stmts
  have h7 : (bodyText stmts).toList = elemTexts stmts := by
    cases stmts with
    | nil => rfl
    | cons s rest =>
      cases s with
      | elem name shape label => rw [bodyText_eq, elemTexts]
      | conn src trg label => exact absurd rfl (h src trg label rest)
  have hsec : ∀ n body, expand [q] (.sec n body) = (secIn n [q]).flatMap fun d' => expandAll (d' :: [q]) body := fun n body => by rw [expand]
  unfold parsed
  rw [expandAll, expandAll, expandAll, expandAll, expandAll, expandAll, expandAll, expandAll, expandAll, hsec, hsec, h3, h4, h6]
  simp only [expand, h1, h2, List.flatMap_nil, List.nil_append, List.append_nil]
  unfold dotText
  rw [hs]
  simp only [String.toList_append, h7, List.append_assoc]

/-- `compileDot` never begins with a connection. -/
theorem dotStmts_head (w : World) (nodes : List Nat) : ∀ src trg label rest, dotStmts w nodes ≠ .conn src trg label :: rest := by
  intro src trg label rest
  unfold dotStmts
  cases nodes with
  | nil => simp [elements]
  | cons n ns => simp [elements]

theorem dot_template (w : World) (kernel time : String) (nodes : List Nat) :
    (dotText w kernel time nodes).toList = render template.toList (dict kernel time (dotStmts w nodes)) :=
  dotText_is_template w kernel time nodes (dotStmts_head w nodes)

end Verif.Dot

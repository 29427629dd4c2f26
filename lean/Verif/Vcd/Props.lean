import Verif.Vcd.Model
import Verif.Tpl.Tac
import Verif.Vcd.Spec
import Mathlib.Data.List.Basic
import Mathlib.Data.Nat.Digits.Lemmas
/-
C79: what a reader of value change dumps gets from the text.
-/
namespace Verif.Vcd
open Verif.Dfcxx Verif.Driver Verif.Tpl

/-! ### The template, parsed -/

def nodes : List Node := [
  .text "$date ".toList, .var "GEN_TIME", .text " $end\n$version Utopia HLS $end\n$timescale 1ps $end\n\n$scope module logic $end\n".toList,
  .sec "VARS" [.text "$var wire ".toList, .var "WIDTH", .text " ".toList, .var "NAME", .text " ".toList, .var "NAME", .text " $end\n".toList],
  .text "$upscope $end\n$enddefinitions $end\n\n$dumpvars\n".toList,
  .sec "INIT_VARS" [.text "b".toList, .var "INIT_VALUE", .text " ".toList, .var "NAME", .text "\n".toList],
  .text "$end\n\n".toList,
  .sec "TICKS" [.text "#".toList, .var "TICK", .text "\n".toList,
    .sec "VALUES" [.text "b".toList, .var "VALUE", .text " ".toList, .var "NAME", .text "\n".toList], .text "\n".toList],
  .text "#".toList, .var "FINAL_TICK", .text "\n".toList]

theorem parse_template : parse template.toList = some nodes := by kernel_parse

/-- The text for one variable, one initial value, one value, one tick. -/
def varText (p : String × Nat) : List Char := "$var wire ".toList ++ dec p.2 ++ " ".toList ++ p.1.toList ++ " ".toList ++ p.1.toList ++ " $end\n".toList

def changeText (p : String × List Char) : List Char := "b".toList ++ p.2 ++ " ".toList ++ p.1.toList ++ "\n".toList

def initOf (p : String × Nat) : String × List Char := (p.1, List.replicate p.2 'x')

def tickText (r : TickRec) : List Char := "#".toList ++ dec r.tick ++ "\n".toList ++ r.values.flatMap changeText ++ "\n".toList

theorem lookup_section {n : String} {ds : List Dict} {r : List (String × List Dict)} (h : r.lookup n = none) :
    ((section? n ds ++ r).lookup n).getD [] = ds := by
  unfold section?
  split
  · rename_i e; subst e; simp [h]
  · simp

theorem lookup_section_ne {n m : String} {ds : List Dict} {r : List (String × List Dict)} (h : n ≠ m) :
    (section? m ds ++ r).lookup n = r.lookup n := by
  unfold section?
  split
  · rfl
  · have : (n == m) = false := by simpa using h
    simp [List.lookup, this]

theorem secIn_one (n : String) (d : Dict) : secIn n [d] = (d.secs.lookup n).getD [] := by
  simp only [secIn]
  cases d.secs.lookup n <;> rfl

theorem secIn_two (n : String) (d e : Dict) (h : e.secs.lookup n = none) : secIn n [d, e] = (d.secs.lookup n).getD [] := by
  simp only [secIn, h]
  cases d.secs.lookup n <;> rfl

theorem expand_varDict (e : Dict) (p : String × Nat) (a b c d : List Char) :
    expandAll [varDict p, e] [.text a, .var "WIDTH", .text b, .var "NAME", .text c, .var "NAME", .text d] =
      a ++ dec p.2 ++ b ++ p.1.toList ++ c ++ p.1.toList ++ d := by
  have h1 : valueIn "WIDTH" [varDict p, e] = dec p.2 := by simp [valueIn, varDict, Dict.vals]
  have h2 : valueIn "NAME" [varDict p, e] = p.1.toList := by simp [valueIn, varDict, Dict.vals, List.lookup]
  simp only [expandAll, expand, h1, h2, List.append_assoc, List.append_nil]

theorem expand_initDict (e : Dict) (p : String × Nat) (a b c : List Char) :
    expandAll [initDict p, e] [.text a, .var "INIT_VALUE", .text b, .var "NAME", .text c] =
      a ++ List.replicate p.2 'x' ++ b ++ p.1.toList ++ c := by
  have h1 : valueIn "INIT_VALUE" [initDict p, e] = List.replicate p.2 'x' := by simp [valueIn, initDict, Dict.vals]
  have h2 : valueIn "NAME" [initDict p, e] = p.1.toList := by simp [valueIn, initDict, Dict.vals, List.lookup]
  simp only [expandAll, expand, h1, h2, List.append_assoc, List.append_nil]

theorem expand_valueDict (e f : Dict) (p : String × List Char) (a b c : List Char) :
    expandAll [valueDict p, e, f] [.text a, .var "VALUE", .text b, .var "NAME", .text c] = a ++ p.2 ++ b ++ p.1.toList ++ c := by
  have h1 : valueIn "VALUE" [valueDict p, e, f] = p.2 := by simp [valueIn, valueDict, Dict.vals]
  have h2 : valueIn "NAME" [valueDict p, e, f] = p.1.toList := by simp [valueIn, valueDict, Dict.vals, List.lookup]
  simp only [expandAll, expand, h1, h2, List.append_assoc, List.append_nil]

theorem expand_tickDict (e : Dict) (he : e.secs.lookup "VALUES" = none) (r : TickRec) (a b c d x y : List Char) :
    expandAll [tickDict r, e] [.text a, .var "TICK", .text b, .sec "VALUES" [.text x, .var "VALUE", .text y, .var "NAME", .text c], .text d] =
      a ++ dec r.tick ++ b ++ (r.values.flatMap fun p => x ++ p.2 ++ y ++ p.1.toList ++ c) ++ d := by
  have hk : valueIn "TICK" [tickDict r, e] = dec r.tick := by simp [valueIn, tickDict, Dict.vals]
  have hvals : secIn "VALUES" [tickDict r, e] = r.values.map valueDict := by
    rw [secIn_two _ _ _ he]
    simp only [tickDict, Dict.secs]
    split
    · rename_i e; simp [e]
    · simp
  rw [expandAll, expandAll, expandAll, expandAll, expandAll, expandAll]
  rw [show expand [tickDict r, e] (.sec "VALUES" [.text x, .var "VALUE", .text y, .var "NAME", .text c]) =
    (secIn "VALUES" [tickDict r, e]).flatMap fun d => expandAll (d :: [tickDict r, e]) [.text x, .var "VALUE", .text y, .var "NAME", .text c] from by
      rw [expand], hvals, List.flatMap_map]
  simp only [expand_valueDict]
  simp only [expand, hk, List.append_assoc, List.append_nil]

theorem expand_all (d : Dict) (vs : List (String × Nat)) (ts : List TickRec) (time fin a b c₁ c₂ c₃ c₄ e f₁ f₂ f₃ g h₁ h₂ h₃ k₁ k₂ k₃ k₄ k₅: List Char)
    (hg : valueIn "GEN_TIME" [d] = time) (hf : valueIn "FINAL_TICK" [d] = fin)
    (hv : secIn "VARS" [d] = vs.map varDict) (hi : secIn "INIT_VARS" [d] = vs.map initDict) (ht : secIn "TICKS" [d] = ts.map tickDict)
    (hn : d.secs.lookup "VALUES" = none) :
    expandAll [d] [.text a, .var "GEN_TIME", .text b, .sec "VARS" [.text c₁, .var "WIDTH", .text c₂, .var "NAME", .text c₃, .var "NAME", .text c₄],
      .text e, .sec "INIT_VARS" [.text f₁, .var "INIT_VALUE", .text f₂, .var "NAME", .text f₃], .text g,
      .sec "TICKS" [.text h₁, .var "TICK", .text h₂, .sec "VALUES" [.text k₁, .var "VALUE", .text k₂, .var "NAME", .text k₃], .text h₃], .text k₄,
      .var "FINAL_TICK", .text k₅] =
    a ++ time ++ (b ++ ((vs.flatMap fun p => c₁ ++ dec p.2 ++ c₂ ++ p.1.toList ++ c₃ ++ p.1.toList ++ c₄) ++
      (e ++ ((vs.flatMap fun p => f₁ ++ List.replicate p.2 'x' ++ f₂ ++ p.1.toList ++ f₃) ++
        (g ++ ((ts.flatMap fun r => h₁ ++ dec r.tick ++ h₂ ++ (r.values.flatMap fun p => k₁ ++ p.2 ++ k₂ ++ p.1.toList ++ k₃) ++ h₃) ++
          (k₄ ++ fin ++ k₅))))))) := by
  rw [expandAll, expandAll, expandAll, expandAll, expandAll, expandAll, expandAll, expandAll, expandAll, expandAll, expandAll, expandAll]
  have hsec : ∀ n body, expand [d] (.sec n body) = (secIn n [d]).flatMap fun d' => expandAll (d' :: [d]) body := fun n body => by rw [expand]
  rw [hsec, hsec, hsec, hv, hi, ht, List.flatMap_map, List.flatMap_map, List.flatMap_map]
  simp only [expand_varDict, expand_initDict, expand_tickDict d hn]
  simp only [expand, hg, hf, List.append_assoc, List.append_nil]

/-- The text, written out. -/
theorem text_eq (now : Clock) (v : Dfcxx.Vcd) : text now v =
    "$date ".toList ++ (if v.ticks = [] then [] else now.text) ++
      (" $end\n$version Utopia HLS $end\n$timescale 1ps $end\n\n$scope module logic $end\n".toList ++ (v.vars.flatMap varText ++
        ("$upscope $end\n$enddefinitions $end\n\n$dumpvars\n".toList ++ ((v.vars.map initOf).flatMap changeText ++
          ("$end\n\n".toList ++ (v.ticks.flatMap tickText ++ ("#".toList ++ dec v.final ++ "\n".toList))))))) := by
  unfold text render
  rw [parse_template]
  have hv : secIn "VARS" [dict now v] = v.vars.map varDict := by
    rw [secIn_one]; simp only [dict, Dict.secs, List.append_assoc]
    rw [lookup_section]
    rw [lookup_section_ne (by decide), ← List.append_nil (section? "TICKS" _), lookup_section_ne (by decide)]; rfl
  have hi : secIn "INIT_VARS" [dict now v] = v.vars.map initDict := by
    rw [secIn_one]; simp only [dict, Dict.secs, List.append_assoc]
    rw [lookup_section_ne (by decide), lookup_section]
    rw [← List.append_nil (section? "TICKS" _), lookup_section_ne (by decide)]; rfl
  have ht : secIn "TICKS" [dict now v] = v.ticks.map tickDict := by
    rw [secIn_one]; simp only [dict, Dict.secs, List.append_assoc]
    rw [lookup_section_ne (by decide), lookup_section_ne (by decide), ← List.append_nil (section? "TICKS" _), lookup_section]; rfl
  have hval : (dict now v).secs.lookup "VALUES" = none := by
    simp only [dict, Dict.secs, List.append_assoc]
    rw [lookup_section_ne (by decide), lookup_section_ne (by decide), ← List.append_nil (section? "TICKS" _), lookup_section_ne (by decide)]; rfl
  have hgen : valueIn "GEN_TIME" [dict now v] = if v.ticks = [] then [] else now.text := by
    by_cases e : v.ticks = [] <;> simp [valueIn, dict, Dict.vals, e, List.lookup]
  have hfin : valueIn "FINAL_TICK" [dict now v] = dec v.final := by
    by_cases e : v.ticks = [] <;> simp [valueIn, dict, Dict.vals, e, List.lookup]
  show expandAll [dict now v] nodes = _
  unfold nodes
  rw [expand_all (dict now v) v.vars v.ticks _ _ _ _ _ _ _ _ _ _ _ _ _ _ _ _ _ _ _ _ _ hgen hfin hv hi ht hval]
  rw [List.flatMap_map]
  rfl

end Verif.Vcd

import Verif.Model.Types

/-!
# The signatures of the library functions can be read

`instance of` reads the signature of a function item from a table of texts (src/xpath_impl/func.rs); none of them is a syntax error.
-/

namespace Amxml

/-- The text is a function test. -/
def readableSig (s : Str) : Bool :=
  match Lexer.new s with
  | .error _ => false
  | .ok ts =>
    match Parser.parseFunctionTest (Parser.body ts) with
    | .error _ => false
    | .ok _ => true

theorem readable0 : ((funcSignatureTbl.drop 0).take 11).all (fun e => readableSig e.2) = true := by decide +kernel
theorem readable1 : ((funcSignatureTbl.drop 11).take 11).all (fun e => readableSig e.2) = true := by decide +kernel
theorem readable2 : ((funcSignatureTbl.drop 22).take 11).all (fun e => readableSig e.2) = true := by decide +kernel
theorem readable3 : ((funcSignatureTbl.drop 33).take 11).all (fun e => readableSig e.2) = true := by decide +kernel
theorem readable4 : ((funcSignatureTbl.drop 44).take 11).all (fun e => readableSig e.2) = true := by decide +kernel
theorem readable5 : ((funcSignatureTbl.drop 55).take 11).all (fun e => readableSig e.2) = true := by decide +kernel
theorem readable6 : ((funcSignatureTbl.drop 66).take 11).all (fun e => readableSig e.2) = true := by decide +kernel
theorem readable7 : ((funcSignatureTbl.drop 77).take 11).all (fun e => readableSig e.2) = true := by decide +kernel

theorem signatures_readable : ∀ e ∈ funcSignatureTbl, readableSig e.2 = true := by
  have hl : funcSignatureTbl = ((funcSignatureTbl.drop 0).take 11) ++ (((funcSignatureTbl.drop 11).take 11) ++ (((funcSignatureTbl.drop 22).take 11) ++ (((funcSignatureTbl.drop 33).take 11) ++ (((funcSignatureTbl.drop 44).take 11) ++ (((funcSignatureTbl.drop 55).take 11) ++ (((funcSignatureTbl.drop 66).take 11) ++ (((funcSignatureTbl.drop 77).take 11)))))))) := rfl
  intro e he
  rw [hl] at he
  simp only [List.mem_append] at he
  rcases he with he | he | he | he | he | he | he | he
  · exact List.all_eq_true.1 readable0 e he
  · exact List.all_eq_true.1 readable1 e he
  · exact List.all_eq_true.1 readable2 e he
  · exact List.all_eq_true.1 readable3 e he
  · exact List.all_eq_true.1 readable4 e he
  · exact List.all_eq_true.1 readable5 e he
  · exact List.all_eq_true.1 readable6 e he
  · exact List.all_eq_true.1 readable7 e he

end Amxml

import Verif.Sol.Solidity

/-!
# The text of the generated function

Sources: `code_generator/ctx.rs` (cited as `ctx.rs`), `src/lib.rs` and `templates/verifier.sol` of `halo2-snark-aggregator-solidity`. `none` is a
panic of the generator.
-/

namespace Verif.Sol

/-- ctx.rs:18-23. -/
def Ty.libString : Ty → String
  | .scalar => "fr"
  | .point => "ecc"

/-- `to_untyped_string`: ctx.rs:100-108. -/
def Expr.untyped : Expr → Option String
  | .memory o .scalar => some ("m[" ++ toString o ++ "]")
  | .memory o .point => some ("(m[" ++ toString o ++ "], m[" ++ toString (o + 1) ++ "])")
  | .temp .scalar => some "t0"
  | .temp .point => some "(t0, t1)"
  | _ => none

/-- `to_typed_string`: ctx.rs:167-254. -/
def Expr.typed : Expr → Option String
  | .scalar n => some (toString n)
  | .point x y => some (toString x ++ ", " ++ toString y)
  | .memory o .scalar => some ("m[" ++ toString o ++ "]")
  | .memory o .point => some ("m[" ++ toString o ++ "], m[" ++ toString (o + 1) ++ "]")
  | .add l r .point => do return "ecc_add(" ++ (← l.typed) ++ ", " ++ (← r.typed) ++ ")"
  | .add l r .scalar => do return "addmod(" ++ (← l.typed) ++ ", " ++ (← r.typed) ++ ", q_mod)"
  | .sub l r .point => do return "ecc_sub(" ++ (← l.typed) ++ ", " ++ (← r.typed) ++ ")"
  | .sub l r .scalar => do return "addmod(" ++ (← l.typed) ++ ", q_mod - " ++ (← r.typed) ++ ", q_mod)"
  | .mul k p .point => do return "ecc_mul(" ++ (← p.typed) ++ ", " ++ (← k.typed) ++ ")"
  | .mul l r .scalar => do return "mulmod(" ++ (← l.typed) ++ ", " ++ (← r.typed) ++ ", q_mod)"
  | .div l r t => do return t.libString ++ "_div(" ++ (← l.typed) ++ ", " ++ (← r.typed) ++ ")"
  | .mulAdd l r c t => do return t.libString ++ "_mul_add(" ++ (← l.typed) ++ ", " ++ (← r.typed) ++ ", " ++ (← c.typed) ++ ")"
  | .transcript o .scalar => some ("proof[" ++ toString o ++ "]")
  | .transcript o .point => some ("proof[" ++ toString o ++ "], proof[" ++ toString (o + 1) ++ "]")
  | .inst o .scalar => some ("instances[" ++ toString o ++ "]")
  | .inst o .point => some ("instances[" ++ toString o ++ "], instances[" ++ toString (o + 1) ++ "]")
  | .tmpBuf o t => some (t.libString ++ "_from_bytes(vars, " ++ toString o ++ ")")
  | .hash o => some ("squeeze_challenge(absorbing, " ++ toString o ++ ")")
  | .pow b e .scalar => do return "fr_pow(" ++ (← b.typed) ++ ", " ++ toString e ++ ")"
  | .pow _ _ .point => none
  | .temp .scalar => some "t0"
  | .temp .point => some "t0, t1"
  | .mulAddPM target opcode t => do
    return t.libString ++ "_mul_add_pm(m, proof, " ++ toString opcode ++ ", " ++ (← target.typed) ++ ")"
  | .mulAddMT m opcode => some ("fr_mul_add_mt(m, m[" ++ toString m ++ "], " ++ toString opcode ++ ", t0)")

/-- `to_solidity_string`: ctx.rs:414-464 (loops) and 468-550. `to_mem_code` returns `None` (ctx.rs:118-119), so there are never opcodes to
write out, and assignments and updates are one line. -/
def Stmt.lines : Stmt → Option (List String)
  | .assign l r => do return [(← l.untyped) ++ " = (" ++ (← r.typed) ++ ");"]
  | .updateHash e off =>
    match e.type with
    | .point => do return ["update_hash_point(" ++ (← e.typed) ++ ", absorbing, " ++ toString off ++ ");"]
    | .scalar => do return ["update_hash_scalar(" ++ (← e.typed) ++ ", absorbing, " ++ toString off ++ ");"]
  | .loop memStart memEnd memStep absStart absStep t =>
    if memStart ≤ memEnd ∧ memStep ≠ 0 then
      some ["for (t0 = 0; t0 <= " ++ toString ((memEnd - memStart) / memStep) ++ "; t0++) {",
        match t with
        | .scalar => "    update_hash_scalar(proof[" ++ toString memStart ++ " + t0 * " ++ toString memStep ++ "], absorbing, " ++
            toString absStart ++ " + t0 * " ++ toString absStep ++ ");"
        | .point => "    update_hash_point(proof[" ++ toString memStart ++ " + t0 * " ++ toString memStep ++ "], proof[" ++
            toString (memStart + 1) ++ " + t0 * " ++ toString memStep ++ "], absorbing, " ++ toString absStart ++ " + t0 * " ++
            toString absStep ++ ");",
        "}"]
    else none
  | .mulLoop start step n .scalar =>
    some ["for (t0 = 0; t0 < " ++ toString n ++ "; t0++) {",
      "    m[" ++ toString start.1 ++ " + t0 * " ++ toString step.1 ++ "] = (mulmod(m[" ++ toString start.2.1 ++ " + t0 * " ++
        toString step.2.1 ++ "], m[" ++ toString start.2.2 ++ " + t0 * " ++ toString step.2.2 ++ "], q_mod));",
      "}"]
  | .mulLoop _ _ _ .point => none

/-- lib.rs:40-43, and the loop of the template over `statements` (verifier.sol:350-352). `{%-` removes the white space before it. -/
def renderStmts : List Stmt → Option String
  | [] => some ""
  | c :: cs => do return String.join ((← c.lines).map fun l => "\n        " ++ l) ++ (← renderStmts cs)

/-- The body of `get_wx_wg`: verifier.sol:345-353, filled by lib.rs:53-55 and 114-116. -/
def Prog.text (p : Prog) : Option String :=
  match p.finals with
  | [wx, wg] => do
    return "uint256[" ++ toString p.size ++ "] memory m;\n        uint256[" ++ toString (p.absorbingLength + 1) ++
      "] memory absorbing;\n        uint256 t0 = 0;\n        uint256 t1 = 0;\n\n        " ++ (← renderStmts p.stmts) ++ "\n        return (" ++
      (← wx.typed) ++ ", " ++ (← wg.typed) ++ ");"
  | _ => none

end Verif.Sol

import Verif.Base
import Verif.HashTree.Props
import Verif.LinkedList.Props
import Verif.Tree.Props
import Verif.Vector.Props
import Verif.BlockTree.Props
import Verif.SymbolTable.Props
import Verif.Stack.Props
import Verif.Types.Props
import Verif.IR.Builder
import Verif.Expr.Typing
import Verif.Expr.Main
import Verif.Expr.Balanced
import Verif.Expr.Props
import Verif.Expr.Findings
import Verif.Lexer.CursorProps
import Verif.Lexer.Matchers
import Verif.Lexer.IntProps
import Verif.Lexer.PunctProps
import Verif.Lexer.BlankProps
import Verif.Lexer.EscapeProps
import Verif.Lexer.LexProps
import Verif.Lexer.IdentProps
import Verif.Lexer.LocProps
import Verif.Json.Props
import Verif.StringBuffer.Props
import Verif.Layout.Props
import Verif.Layout.BitProps
import Verif.Abi.Props
import Verif.StaticData.Props
import Verif.ConstExpr.Props
import Verif.PpToken.Props
import Verif.PpToken.StringifyProps
import Verif.PpToken.ConvertProps
import Verif.PpToken.JoinProps
import Verif.Preproc.Sequence
import Verif.Preproc.ExpandProps
import Verif.Preproc.ExpandFindings
import Verif.Preproc.Scope
import Verif.Preproc.OperatorProps
import Verif.Preproc.GroupProps
import Verif.Compat.Props
import Verif.Parser.Props
import Verif.Stmt.Props
import Verif.Scope.Props
import Verif.Decl.Props
import Verif.Init.Props
import Verif.Declr.Props
import Verif.DeclParser.Props
import Verif.UnitParser.Props
import Verif.ExprType.Props
import Verif.Locals.Props
import Verif.Call.Props
import Verif.Call.VaProps
import Verif.Call.ReturnProps
import Verif.Directive.Props
import Verif.Tags.Props
import Verif.AddrConst.Props
import Verif.Enumerators.Props
import Verif.Include.Props
import Verif.AsmData.Props
import Verif.Skip.Props
import Verif.Cli.Props
import Verif.AsmCode.Props
import Verif.Entry.Props
import Verif.LineDir.Props
import Verif.Errors.Props
import Verif.Slots.Props
import Verif.Temps.Props
import Verif.Passing.Props
import Verif.Alignas.Props
import Verif.Vla.Props
import Verif.Carry.Props
import Verif.JumpVla.Props
import Verif.Generic.Props
import Verif.Assert.Props

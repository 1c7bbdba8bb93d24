import Verif.Model.Describe
import Verif.Model.Trie
import Verif.Props.Helper
import Verif.Props.Kinds
import Verif.Props.Trie
import Verif.Props.Links
import Verif.Props.Node
import Verif.Props.Save
import Verif.Props.Extract
import Verif.Props.Reset
import Verif.Props.Scope
import Verif.Proofs.Above
import Verif.Props.Ast
import Verif.Props.Describe
import Verif.Proofs.Runs
import Verif.Props.Getters
import Verif.Proofs.Keep
import Verif.Proofs.Names
import Verif.Proofs.Ends
import Verif.Proofs.Method
import Verif.Props.Names
import Verif.Props.Text
import Verif.Spec.Labels
import Verif.Spec.Reads
import Verif.Proofs.Labels
import Verif.Proofs.FuncDecl
import Verif.Proofs.FuncReset
import Verif.Proofs.Reads
import Verif.Props.Labels
import Verif.Spec.TypeLabels
import Verif.Proofs.StructDecl
import Verif.Proofs.InterfaceDecl
import Verif.Proofs.TypeDecl
import Verif.Props.TypeLabels
import Verif.Spec.Relocate
import Verif.Proofs.Relocate
import Verif.Proofs.RelocateReset
import Verif.Proofs.RelocateType
import Verif.Spec.View
import Verif.Proofs.RelocateView
import Verif.Props.Pure
import Verif.Spec.Compose
import Verif.Proofs.Like
import Verif.Proofs.LikeReset
import Verif.Proofs.Alone
import Verif.Proofs.Compose
import Verif.Props.Compose
import Verif.Props.Edit
import Verif.Model.Example
import Verif.Props.Iterate
import Verif.Props.Strip
import Verif.Spec.Survive
import Verif.Props.Survive
import Verif.Props.SurviveCheck
import Verif.Spec.Sections
import Verif.Props.Sections
import Verif.Props.SectionsCheck
import Verif.Props.Rewrite
import Verif.Props.RewriteCheck
import Verif.Props.Goroutines
import Verif.Props.Assert
import Verif.Props.AstGoroutines
import Verif.Props.Crash
import Verif.Props.Live
import Verif.Props.Usecase
import Verif.Props.Debug
import Verif.Props.KindValues
import Verif.Props.IterScope
import Verif.Props.Steps
import Verif.Props.ParseSteps
import Verif.Props.Cost
import Verif.Props.WaitFree
import Verif.Props.Assemble
import Verif.Props.Generate
import Verif.Props.EditOne
import Verif.Props.Snapshot
import Verif.Props.Pick
import Verif.Props.EditPrev
import Verif.Props.WaitIter
import Verif.Props.StartLine
import Verif.Props.Ring
import Verif.Props.RewriteAgain
import Verif.Props.EditFile
import Verif.Props.Path
import Verif.Props.UserScope
import Verif.Props.Tree
import Verif.Spec.Saves
import Verif.Props.Saves
import Verif.Props.TreeRead
import Verif.Tests

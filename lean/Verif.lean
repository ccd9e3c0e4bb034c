import Verif.Py.Dict
import Verif.Py.Monad
import Verif.Py.Path
import Verif.Py.Str
import Verif.Model.Always
import Verif.Model.Args
import Verif.Model.BatchHooks
import Verif.Model.Cascade
import Verif.Model.Compare
import Verif.Model.Config
import Verif.Model.Context
import Verif.Model.Copying
import Verif.Model.Debug
import Verif.Model.Definition
import Verif.Model.EmptyObj
import Verif.Model.FailedLoad
import Verif.Model.Files
import Verif.Model.FindSpec
import Verif.Model.Frames
import Verif.Model.Imports
import Verif.Model.Iterate
import Verif.Model.Listing
import Verif.Model.LoadConfig
import Verif.Model.Locate
import Verif.Model.Main
import Verif.Model.Managers
import Verif.Model.MethodView
import Verif.Model.Named
import Verif.Model.NestedDict
import Verif.Model.NewItem
import Verif.Model.Notify
import Verif.Model.ObjState
import Verif.Model.Objects
import Verif.Model.Options
import Verif.Model.PluginRegistry
import Verif.Model.Plugins
import Verif.Model.ProductPaths
import Verif.Model.Project
import Verif.Model.ReadDef
import Verif.Model.Recorded
import Verif.Model.Registry
import Verif.Model.Reload
import Verif.Model.RunLog
import Verif.Model.Runner
import Verif.Model.SaveAs
import Verif.Model.Scaffold
import Verif.Model.SectionFiles
import Verif.Model.SectionPath
import Verif.Model.Selector
import Verif.Model.Session
import Verif.Model.Shared
import Verif.Model.Stale
import Verif.Model.Stdout
import Verif.Model.Store
import Verif.Model.Tags
import Verif.Model.View
import Verif.Model.ViewType
import Verif.Lemmas.Apart
import Verif.Lemmas.Config
import Verif.Lemmas.Files
import Verif.Lemmas.Frame
import Verif.Lemmas.Inherit
import Verif.Lemmas.Iterate
import Verif.Lemmas.Lookup
import Verif.Lemmas.ObjectGraft
import Verif.Lemmas.ObjectLoad
import Verif.Lemmas.ObjectMatch
import Verif.Lemmas.ObjectMissing
import Verif.Lemmas.ObjectOps
import Verif.Lemmas.ObjectRefine
import Verif.Lemmas.ObjectReset
import Verif.Lemmas.ObjectSteps
import Verif.Lemmas.Objects
import Verif.Lemmas.OwnAttr
import Verif.Lemmas.OwnCalls
import Verif.Lemmas.Reach
import Verif.Lemmas.RegTree
import Verif.Lemmas.Runner
import Verif.Lemmas.RunnerItem
import Verif.Lemmas.RunnerObj
import Verif.Lemmas.Scaffold
import Verif.Lemmas.SectionMerge
import Verif.Lemmas.SectionPath
import Verif.Lemmas.SetAt
import Verif.Lemmas.Store
import Verif.Lemmas.Swaps
import Verif.Lemmas.Tree
import Verif.Lemmas.Twice
import Verif.Lemmas.View
import Verif.Props.Always
import Verif.Props.Apart
import Verif.Props.Args
import Verif.Props.Atomic
import Verif.Props.Attr
import Verif.Props.BatchHooks
import Verif.Props.Cascade
import Verif.Props.CascadeLast
import Verif.Props.CascadeRaise
import Verif.Props.CascadeRunner
import Verif.Props.Compare
import Verif.Props.Config
import Verif.Props.Context
import Verif.Props.Copying
import Verif.Props.Create
import Verif.Props.CreateReserved
import Verif.Props.Debug
import Verif.Props.Definition
import Verif.Props.EmptyObj
import Verif.Props.Entries
import Verif.Props.FailedLoad
import Verif.Props.FileUse
import Verif.Props.Files
import Verif.Props.FilesToy
import Verif.Props.FindSpec
import Verif.Props.Imports
import Verif.Props.ItemListing
import Verif.Props.ItemView
import Verif.Props.Iterate
import Verif.Props.IterateRun
import Verif.Props.Kinds
import Verif.Props.Lasting
import Verif.Props.Listing
import Verif.Props.Literal
import Verif.Props.LoadConfig
import Verif.Props.LoadReserved
import Verif.Props.Locate
import Verif.Props.Main
import Verif.Props.Managers
import Verif.Props.Merge
import Verif.Props.MethodView
import Verif.Props.Modules
import Verif.Props.Named
import Verif.Props.NestedDict
import Verif.Props.NewClass
import Verif.Props.NewClassToy
import Verif.Props.NewItem
import Verif.Props.NewItemToy
import Verif.Props.NotLoaded
import Verif.Props.Notify
import Verif.Props.NotifyPaths
import Verif.Props.ObjState
import Verif.Props.ObjectCurrent
import Verif.Props.Objects
import Verif.Props.Options
import Verif.Props.Outside
import Verif.Props.OwnCalls
import Verif.Props.PluginCases
import Verif.Props.PluginRegistry
import Verif.Props.Plugins
import Verif.Props.Product
import Verif.Props.ProductPaths
import Verif.Props.Project
import Verif.Props.Reaches
import Verif.Props.ReadDef
import Verif.Props.Recorded
import Verif.Props.Reload
import Verif.Props.Repeat
import Verif.Props.Reserved
import Verif.Props.ResetInside
import Verif.Props.RunLog
import Verif.Props.Runner
import Verif.Props.SameUpdate
import Verif.Props.SaveAs
import Verif.Props.Scaffold
import Verif.Props.Section
import Verif.Props.SectionFiles
import Verif.Props.SectionMerge
import Verif.Props.SectionPath
import Verif.Props.SectionReset
import Verif.Props.SectionUpdate
import Verif.Props.Selector
import Verif.Props.Session
import Verif.Props.Shared
import Verif.Props.SharedStore
import Verif.Props.Stale
import Verif.Props.Stdout
import Verif.Props.Store
import Verif.Props.Swaps
import Verif.Props.Tags
import Verif.Props.Tree
import Verif.Props.Twice
import Verif.Props.Typo
import Verif.Props.ViewType

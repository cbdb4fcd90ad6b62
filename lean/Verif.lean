import Verif.Py.Base64
import Verif.Py.Basic
import Verif.Py.Bytes
import Verif.Py.Calendar
import Verif.Py.DateTime
import Verif.Py.Dict
import Verif.Py.Int
import Verif.Py.Json
import Verif.Py.Number
import Verif.Py.Path
import Verif.Py.Quote
import Verif.Py.Random
import Verif.Py.Url
import Verif.Py.Uuid
import Verif.Py.Value
import Verif.Spec.Aggregate
import Verif.Spec.AppResolve
import Verif.Spec.Base64
import Verif.Spec.Calendar
import Verif.Spec.Call
import Verif.Spec.Compare
import Verif.Spec.Composed
import Verif.Spec.Conform
import Verif.Spec.Cycle
import Verif.Spec.Dangling
import Verif.Spec.Data12
import Verif.Spec.Described
import Verif.Spec.Diff
import Verif.Spec.Dispatched
import Verif.Spec.Doc
import Verif.Spec.Document20
import Verif.Spec.DotSegments
import Verif.Spec.File
import Verif.Spec.FormDecode
import Verif.Spec.Generated
import Verif.Spec.Index
import Verif.Spec.Iso8601
import Verif.Spec.Json
import Verif.Spec.Listing12
import Verif.Spec.Merge
import Verif.Spec.MergeRefs
import Verif.Spec.Model12
import Verif.Spec.Multipart
import Verif.Spec.Needs
import Verif.Spec.Parents
import Verif.Spec.Pointed
import Verif.Spec.Range
import Verif.Spec.Refused
import Verif.Spec.Refused12
import Verif.Spec.Rendered
import Verif.Spec.Reply
import Verif.Spec.Resolver
import Verif.Spec.Rfc3339
import Verif.Spec.Rfc6901
import Verif.Spec.Rules12
import Verif.Spec.SchemaDoc
import Verif.Spec.Server
import Verif.Spec.Service
import Verif.Spec.Shared
import Verif.Spec.Swagger12
import Verif.Spec.Swagger20
import Verif.Spec.Tagged
import Verif.Spec.Tree
import Verif.Spec.Upgrade12
import Verif.Spec.Upload
import Verif.Spec.Uuid
import Verif.Spec.Wire
import Verif.Model.Aggregate
import Verif.Model.AppResolve
import Verif.Model.Ask
import Verif.Model.Attempt
import Verif.Model.Byte
import Verif.Model.CIDict
import Verif.Model.Call
import Verif.Model.Client
import Verif.Model.Clients
import Verif.Model.Codec
import Verif.Model.Compare
import Verif.Model.Composed
import Verif.Model.Create
import Verif.Model.CycleDetector
import Verif.Model.Deref
import Verif.Model.Diff
import Verif.Model.Dispatch
import Verif.Model.Doc
import Verif.Model.Doc12
import Verif.Model.Doc20
import Verif.Model.Effective
import Verif.Model.Getter
import Verif.Model.Index
import Verif.Model.Iso8601
import Verif.Model.Json
import Verif.Model.JsonPointer
import Verif.Model.Load12
import Verif.Model.Loaded
import Verif.Model.LocalFile
import Verif.Model.Merge
import Verif.Model.MergeRefs
import Verif.Model.ModelEq
import Verif.Model.Objects
import Verif.Model.Parent
import Verif.Model.Patch
import Verif.Model.Prim
import Verif.Model.Registry
import Verif.Model.Render
import Verif.Model.RenderFormats
import Verif.Model.Rendering
import Verif.Model.Reply
import Verif.Model.Request
import Verif.Model.Resolver
import Verif.Model.Response
import Verif.Model.Scan
import Verif.Model.Schemas
import Verif.Model.Scope
import Verif.Model.Security
import Verif.Model.Service
import Verif.Model.Tree
import Verif.Model.Upgrade
import Verif.Model.Upgraded
import Verif.Model.Url
import Verif.Model.Uuid
import Verif.Model.Validate
import Verif.Model.Validate12
import Verif.Model.Walk
import Verif.Model.World
import Verif.Model.Yaml
import Verif.Proofs.Aggregate
import Verif.Proofs.AppResolve
import Verif.Proofs.Bare
import Verif.Proofs.Base64
import Verif.Proofs.Calendar
import Verif.Proofs.Call
import Verif.Proofs.Checked
import Verif.Proofs.Closed12
import Verif.Proofs.Compare
import Verif.Proofs.Compose
import Verif.Proofs.Composed
import Verif.Proofs.Conform
import Verif.Proofs.Create
import Verif.Proofs.Data12
import Verif.Proofs.Derel
import Verif.Proofs.Dict
import Verif.Proofs.Diff
import Verif.Proofs.Doc
import Verif.Proofs.Doc12
import Verif.Proofs.Document20
import Verif.Proofs.Effective
import Verif.Proofs.Fit
import Verif.Proofs.Generated
import Verif.Proofs.Index
import Verif.Proofs.Iso8601
import Verif.Proofs.Json
import Verif.Proofs.JsonNumber
import Verif.Proofs.JsonPointer
import Verif.Proofs.Listing12
import Verif.Proofs.Loaded
import Verif.Proofs.LocalFile
import Verif.Proofs.Made
import Verif.Proofs.Merge
import Verif.Proofs.MergeRefs
import Verif.Proofs.MergeWF
import Verif.Proofs.Model12
import Verif.Proofs.Number
import Verif.Proofs.Origin
import Verif.Proofs.Parent
import Verif.Proofs.ParentMerge
import Verif.Proofs.Parts12
import Verif.Proofs.Placed
import Verif.Proofs.Prepared
import Verif.Proofs.Prim
import Verif.Proofs.PrimAllOf
import Verif.Proofs.PrimEnds
import Verif.Proofs.PrimModel
import Verif.Proofs.PrimParts
import Verif.Proofs.PrimStack
import Verif.Proofs.Quote
import Verif.Proofs.Random
import Verif.Proofs.Render
import Verif.Proofs.Replace
import Verif.Proofs.Reply
import Verif.Proofs.Request
import Verif.Proofs.Resolver
import Verif.Proofs.Scan
import Verif.Proofs.Schemas
import Verif.Proofs.Scope
import Verif.Proofs.Shape
import Verif.Proofs.Shape12
import Verif.Proofs.Simulate
import Verif.Proofs.Str
import Verif.Proofs.TreeEq
import Verif.Proofs.Under
import Verif.Proofs.Upgrade
import Verif.Proofs.Upgrade12
import Verif.Proofs.Upgraded
import Verif.Proofs.Url
import Verif.Proofs.Uses12
import Verif.Proofs.Validate12
import Verif.Proofs.Values
import Verif.Proofs.Visited
import Verif.Proofs.Walk
import Verif.Proofs.Wire
import Verif.Props.C01
import Verif.Props.C02
import Verif.Props.C03
import Verif.Props.C04
import Verif.Props.C05
import Verif.Props.C06
import Verif.Props.C07
import Verif.Props.C08
import Verif.Props.C09
import Verif.Props.C10
import Verif.Props.C100
import Verif.Props.C101
import Verif.Props.C11
import Verif.Props.C12
import Verif.Props.C13
import Verif.Props.C14
import Verif.Props.C15
import Verif.Props.C16
import Verif.Props.C17
import Verif.Props.C18
import Verif.Props.C19
import Verif.Props.C20
import Verif.Props.C21
import Verif.Props.C22
import Verif.Props.C23
import Verif.Props.C24
import Verif.Props.C25
import Verif.Props.C26
import Verif.Props.C27
import Verif.Props.C28
import Verif.Props.C29
import Verif.Props.C30
import Verif.Props.C31
import Verif.Props.C32
import Verif.Props.C33
import Verif.Props.C34
import Verif.Props.C35
import Verif.Props.C36
import Verif.Props.C37
import Verif.Props.C38
import Verif.Props.C39
import Verif.Props.C40
import Verif.Props.C41
import Verif.Props.C42
import Verif.Props.C43
import Verif.Props.C44
import Verif.Props.C45
import Verif.Props.C46
import Verif.Props.C47
import Verif.Props.C48
import Verif.Props.C49
import Verif.Props.C50
import Verif.Props.C51
import Verif.Props.C51Schemes
import Verif.Props.C52
import Verif.Props.C53
import Verif.Props.C54
import Verif.Props.C55
import Verif.Props.C56
import Verif.Props.C57
import Verif.Props.C58
import Verif.Props.C59
import Verif.Props.C60
import Verif.Props.C60Read
import Verif.Props.C61
import Verif.Props.C62
import Verif.Props.C63
import Verif.Props.C64
import Verif.Props.C65
import Verif.Props.C66
import Verif.Props.C67
import Verif.Props.C68
import Verif.Props.C69
import Verif.Props.C70
import Verif.Props.C71
import Verif.Props.C72
import Verif.Props.C73
import Verif.Props.C74
import Verif.Props.C75
import Verif.Props.C76
import Verif.Props.C77
import Verif.Props.C78
import Verif.Props.C79
import Verif.Props.C79Parts
import Verif.Props.C79World
import Verif.Props.C80
import Verif.Props.C81
import Verif.Props.C81Received
import Verif.Props.C81World
import Verif.Props.C82
import Verif.Props.C82Example
import Verif.Props.C82Wire
import Verif.Props.C83
import Verif.Props.C83Example
import Verif.Props.C84
import Verif.Props.C85
import Verif.Props.C86
import Verif.Props.C86Example
import Verif.Props.C87
import Verif.Props.C88
import Verif.Props.C88Example
import Verif.Props.C89
import Verif.Props.C89Example
import Verif.Props.C90
import Verif.Props.C90Example
import Verif.Props.C91
import Verif.Props.C91Example
import Verif.Props.C92
import Verif.Props.C92Example
import Verif.Props.C93
import Verif.Props.C93Example
import Verif.Props.C94
import Verif.Props.C94Example
import Verif.Props.C95
import Verif.Props.C95Example
import Verif.Props.C96
import Verif.Props.C96Files
import Verif.Props.C97
import Verif.Props.C98
import Verif.Props.C98Example
import Verif.Props.C99
import Verif.Props.C99Example

import Verif.Props.TagStack
import Verif.Props.Session
import Verif.Props.KX
import Verif.Props.KXNet
import Verif.Props.KXServer
import Verif.Props.Ratchet
import Verif.Props.RatchetSetup
import Verif.Props.RatchetLeak
import Verif.Props.Point
import Verif.Props.Hex
import Verif.Props.Identity
import Verif.Props.Blob
import Verif.Props.AddressBook
import Verif.Props.Completion
import Verif.Props.IniDB
import Verif.Props.Xdr
import Verif.Props.StoredMessage
import Verif.Props.Crpc
import Verif.Props.Push
import Verif.Props.Delivery
import Verif.Props.Accounts
import Verif.Props.Policy
import Verif.Props.Rendezvous
import Verif.Props.Sessions
import Verif.Props.Tags
import Verif.Props.Scheduler
import Verif.Props.Chunks
import Verif.Props.Groups
import Verif.Props.GroupFiles
import Verif.Props.Welcome
import Verif.Props.ClientTags
import Verif.Props.Store
import Verif.Props.SendCrash
import Verif.Props.Contact
import Verif.Props.Windows
import Verif.Props.ChatLog
import Verif.Props.Mention
import Verif.Props.Enrol
import Verif.Props.Records
import Verif.Props.BlobKeys
import Verif.Props.PinContact
import Verif.Props.Intro
import Verif.Props.Handshake
import Verif.Props.Settings
import Verif.Props.Startup
import Verif.Props.Reconnect
import Verif.Props.Flow
import Verif.Props.Locks
import Verif.Props.Commands
import Verif.Props.Ends
import Verif.Props.RepoTests
import Verif.Props.Log
import Verif.Props.Front
import Verif.Props.Invites
import Verif.Props.Status
import Verif.Props.Reports
import Verif.Props.Disabled
import Verif.Props.Tokens
import Verif.Props.Admin
import Verif.Props.Deletion
import Verif.Props.Heartbeat
import Verif.Props.GroupsJoin
import Verif.Props.Lookup
import Verif.Props.Listing
import Verif.Props.SharedDB
import Verif.Props.GroupNet
import Verif.Props.Ephemeral
import Verif.Props.RatchetFile
import Verif.Props.EndToEnd
import Verif.Props.Clock
import Verif.Props.Tab
import Verif.Props.Upload
import Verif.Props.ClientDB
import Verif.Props.GroupTalk
import Verif.Props.Dialogs
import Verif.Props.Perms
import Verif.Props.Quit
import Verif.Props.Residue
import Verif.Props.Export
import Verif.Props.SharedProps
import Verif.Props.Quota
import Verif.Props.Transcript
import Verif.Props.Voice
import Verif.Props.Room
import Verif.Props.Observer
import Verif.Props.Cert
import Verif.Props.Sizes
import Verif.Props.Strangers
import Verif.Props.Memory
import Verif.Props.Guess
import Verif.Props.Replies
import Verif.Props.ImportAll
import Verif.Props.Twice
import Verif.Props.Power
import Verif.Props.Presence
import Verif.Props.Journal
import Verif.Props.Answers
import Verif.Props.Told
import Verif.Props.Deny
import Verif.Props.Veil
import Verif.Props.Loot
import Verif.Props.Lists
import Verif.Props.Maps
import Verif.Props.Slices
import Verif.Props.Document
import Verif.Props.Handles
import Verif.Props.FullDisk
import Verif.Props.Leftovers
import Verif.Props.Deleted

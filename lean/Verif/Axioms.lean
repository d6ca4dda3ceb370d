import Verif.Props.AcceptLog
import Verif.Props.Accepting
import Verif.Props.AllAtOnce
import Verif.Props.Appender
import Verif.Props.Backlog
import Verif.Props.Binding
import Verif.Props.Body
import Verif.Props.BodyText
import Verif.Props.Chorus
import Verif.Props.ChorusFile
import Verif.Props.Chunked
import Verif.Props.ClientView
import Verif.Props.Closing
import Verif.Props.Codec
import Verif.Props.CommandLine
import Verif.Props.Compression
import Verif.Props.ConfigFile
import Verif.Props.ConfigFiles
import Verif.Props.ConfigFirst
import Verif.Props.ConfigFix
import Verif.Props.ConfigLog
import Verif.Props.ConfigLogFiles
import Verif.Props.ConfigOrder
import Verif.Props.ConfigPanic
import Verif.Props.ConfigSize
import Verif.Props.ConfigUse
import Verif.Props.Conform
import Verif.Props.ConnLog
import Verif.Props.Console
import Verif.Props.ConsoleChain
import Verif.Props.ConsoleDefault
import Verif.Props.CoreFiles
import Verif.Props.CoreReports
import Verif.Props.CoreVoices
import Verif.Props.CountLimit
import Verif.Props.Crowd
import Verif.Props.CutShort
import Verif.Props.DeadLog
import Verif.Props.Decompress
import Verif.Props.DeleteExact
import Verif.Props.DiskErrors
import Verif.Props.DiskRotation
import Verif.Props.Dispatcher
import Verif.Props.EndToEnd
import Verif.Props.Exit
import Verif.Props.Fairness
import Verif.Props.FileForever
import Verif.Props.FileSettings
import Verif.Props.FilterExact
import Verif.Props.Flow
import Verif.Props.FlushOrder
import Verif.Props.Forever
import Verif.Props.Framing
import Verif.Props.FromFile
import Verif.Props.Grammar
import Verif.Props.Handshake
import Verif.Props.Head
import Verif.Props.HeadEnd
import Verif.Props.HeaderCost
import Verif.Props.Hopeful
import Verif.Props.Include
import Verif.Props.InheritExact
import Verif.Props.IsolationExact
import Verif.Props.JoinLoop
import Verif.Props.JsonLine
import Verif.Props.LastWords
import Verif.Props.Limited
import Verif.Props.Listeners
import Verif.Props.LiveLog
import Verif.Props.Local
import Verif.Props.LogChain
import Verif.Props.LogDeath
import Verif.Props.LogErrors
import Verif.Props.LogForever
import Verif.Props.LogRun
import Verif.Props.LogUndefined
import Verif.Props.Logging
import Verif.Props.LoopLog
import Verif.Props.LostConns
import Verif.Props.Main
import Verif.Props.Memory
import Verif.Props.MultiMap
import Verif.Props.NamesExact
import Verif.Props.OneDay
import Verif.Props.Online
import Verif.Props.Order
import Verif.Props.PerCoreLog
import Verif.Props.Pieces
import Verif.Props.Printing
import Verif.Props.Process
import Verif.Props.ReadBack
import Verif.Props.Refusal
import Verif.Props.Render
import Verif.Props.Resources
import Verif.Props.RespWriter
import Verif.Props.Response
import Verif.Props.Rfc
import Verif.Props.RotChain
import Verif.Props.Rotation
import Verif.Props.RotationLoss
import Verif.Props.Run
import Verif.Props.RuntimeCut
import Verif.Props.RuntimeEnd
import Verif.Props.Schema
import Verif.Props.Semantics
import Verif.Props.Serve
import Verif.Props.Services
import Verif.Props.Shutdown
import Verif.Props.ShutdownForever
import Verif.Props.System
import Verif.Props.Tasks
import Verif.Props.Terminal
import Verif.Props.TerminalForge
import Verif.Props.TimeFormat
import Verif.Props.TimeJson
import Verif.Props.TlsAccepting
import Verif.Props.TlsCrowd
import Verif.Props.TlsReader
import Verif.Props.TlsWhole
import Verif.Props.TlsWriter
import Verif.Props.ToldApart
import Verif.Props.Turns
import Verif.Props.Versions
import Verif.Props.WholeProcess
import Verif.Props.WriteAll
import Verif.Props.Writer
import Verif.Props.WriterMoments
/-! Axioms of every property theorem, printed at build time (generated by tools/manifest.py). -/

#print axioms Httpd.C01_segmentation
#print axioms Httpd.C02_wellformed_head
#print axioms Httpd.C03_text_only
#print axioms Httpd.C04_names_normalised
#print axioms Httpd.C04_recase
#print axioms Httpd.C05_repeated_headers
#print axioms Httpd.C06_exactly_partial
#print axioms Httpd.C06_count_ignored_violated
#print axioms Httpd.C06_header_count_violated
#print axioms Httpd.C06_zero_limit_partial
#print axioms Httpd.C07_sizes_partial
#print axioms Httpd.C07_header_sum_violated
#print axioms Httpd.C07_pairs_partial
#print axioms Httpd.C08_method_resplit_violated
#print axioms Httpd.C08_target_resplit_violated
#print axioms Httpd.C08_header_resplit_violated
#print axioms Httpd.C08_oversized_violated
#print axioms Httpd.C08_long_name_partial
#print axioms Httpd.C09_head_terminates
#print axioms Httpd.C10_truncated_partial
#print axioms Httpd.C10_truncated_violated
#print axioms Httpd.C100_idle_client_kept_violated
#print axioms Httpd.C101_each_mut
#print axioms Httpd.C102_tab_refused_partial
#print axioms Httpd.C102_space_before_colon_violated
#print axioms Httpd.C103_not_a_token_violated
#print axioms Httpd.C103_names_partial
#print axioms Httpd.C103_exactly_partial
#print axioms Httpd.C104_no_space_partial
#print axioms Httpd.C104_empty_words_violated
#print axioms Httpd.C104_exactly_partial
#print axioms Httpd.C105_any_version_violated
#print axioms Httpd.C105_version_partial
#print axioms Httpd.C106_host_violated
#print axioms Httpd.C107_lost_signal_violated
#print axioms Httpd.C107_any_number_violated
#print axioms Httpd.C107_stops_partial
#print axioms Httpd.C107_again_partial
#print axioms Httpd.C107_again_all_partial
#print axioms Httpd.C107_again_possible_partial
#print axioms Httpd.C108_dropped_violated
#print axioms Httpd.C108_until_end_partial
#print axioms Httpd.C109_multi_partial
#print axioms Httpd.C109_per_core_violated
#print axioms Httpd.C11_end_exact_partial
#print axioms Httpd.C11_any_two_bytes_violated
#print axioms Httpd.C110_exact_bytes
#print axioms Httpd.C111_one_piece
#print axioms Httpd.C112_wire
#print axioms Httpd.C112_pipelined
#print axioms Httpd.C113_stalls_partial
#print axioms Httpd.C113_never_reads_violated
#print axioms Httpd.C114_buffer_bounded
#print axioms Httpd.C114_every_moment
#print axioms Httpd.C115_plain_writes
#print axioms Httpd.C116_once_partial
#print axioms Httpd.C116_glued_violated
#print axioms Httpd.Console.C117_whole_partial
#print axioms Httpd.Console.C117_torn_violated
#print axioms Httpd.Console.C117_records_are_lines_partial
#print axioms Httpd.Console.C118_one_console_partial
#print axioms Httpd.Console.C118_swapped_violated
#print axioms Httpd.Console.C119_flushed
#print axioms Httpd.C12_colonless_skipped_violated
#print axioms Httpd.C12_empty_name_merged_violated
#print axioms Httpd.C12_bad_line_refused_partial
#print axioms Httpd.C120_story
#print axioms Httpd.C120_hello_request
#print axioms Httpd.C121_made_lost_partial
#print axioms Httpd.C121_spinning_violated
#print axioms Httpd.C121_upgraded_violated
#print axioms Httpd.C122_debug_partial
#print axioms Httpd.C122_release_silent_violated
#print axioms Httpd.C123_one_line_partial
#print axioms Httpd.C123_body_quoted_violated
#print axioms Httpd.C124_default_server
#print axioms Httpd.C125_file_violated
#print axioms Httpd.C125_file_apart_partial
#print axioms Httpd.C125_ignored_violated
#print axioms Httpd.C125_used_partial
#print axioms Httpd.C125_told_apart_partial
#print axioms Httpd.C125_tls_partial
#print axioms Httpd.C125_exactly_partial
#print axioms Httpd.C126_started_partial
#print axioms Httpd.C126_todo_violated
#print axioms Httpd.C126_same_address_violated
#print axioms Httpd.C126_too_large_violated
#print axioms Httpd.C127_root_tls_violated
#print axioms Httpd.C127_own_tls_partial
#print axioms Httpd.C128_race_violated
#print axioms Httpd.C128_spawn_failed_violated
#print axioms Httpd.C128_no_late_thread_partial
#print axioms Httpd.C129_accepted
#print axioms Httpd.C129_accepts
#print axioms Httpd.C129_waits
#print axioms Httpd.C129_refused
#print axioms Httpd.C129_unambiguous
#print axioms Httpd.C129_values
#print axioms Httpd.C13_empty_value_violated
#print axioms Httpd.C13_bare_lf_violated
#print axioms Httpd.C13_value_delivered_partial
#print axioms Httpd.C130_hello_whole
#print axioms Httpd.C130_fs_whole
#print axioms Httpd.C130_determined
#print axioms Httpd.C131_quadratic_violated
#print axioms Httpd.C131_no_factor_violated
#print axioms Httpd.C131_fs_partial
#print axioms Httpd.C132_exactly_partial
#print axioms Httpd.C132_hopeless_violated
#print axioms Httpd.C132_complete_word_partial
#print axioms Httpd.C133_exactly_plain_partial
#print axioms Httpd.C133_valid_refused_violated
#print axioms Httpd.C134_leading_crlf_violated
#print axioms Httpd.C134_no_answer_violated
#print axioms Httpd.C135_any_service
#print axioms Httpd.C135_determined
#print axioms Httpd.C135_same_requests
#print axioms Httpd.C135_all_delivered
#print axioms Httpd.C136_accepted
#print axioms Httpd.C136_accepts
#print axioms Httpd.C136_waits
#print axioms Httpd.C136_spins
#print axioms Httpd.C136_refused
#print axioms Httpd.C137_head_contracts
#print axioms Httpd.C137_head
#print axioms Httpd.C138_reads_written_partial
#print axioms Httpd.C138_exactly
#print axioms Httpd.C138_exactly_chunked
#print axioms Httpd.C138_exposed_violated
#print axioms Httpd.C139_ok_partial
#print axioms Httpd.C139_service_partial
#print axioms Httpd.C139_invalid_violated
#print axioms Httpd.C14_exact_body
#print axioms Httpd.C140_exclusive
#print axioms Httpd.C141_service_file
#print axioms Httpd.C141_file
#print axioms Httpd.C142_unknown_violated
#print axioms Httpd.C142_known_partial
#print axioms Httpd.C142_kinds_partial
#print axioms Httpd.C143_misspelled_violated
#print axioms Httpd.C143_exact_partial
#print axioms Httpd.C143_offered_partial
#print axioms Httpd.C144_empty_partial
#print axioms Httpd.C144_logging_violated
#print axioms Httpd.C145_early_violated
#print axioms Httpd.C145_unreadable_partial
#print axioms Httpd.C146_service
#print axioms Httpd.C146_file
#print axioms Httpd.C147_first_partial
#print axioms Httpd.C147_section_partial
#print axioms Httpd.C147_file_partial
#print axioms Httpd.C147_files_partial
#print axioms Httpd.C147_load_partial
#print axioms Httpd.C147_panic_violated
#print axioms Httpd.C147_exactly_partial
#print axioms Httpd.C148_file_to_wire
#print axioms Httpd.C149_stamp
#print axioms Httpd.C149_calendar
#print axioms Httpd.C15_closed_early_violated
#print axioms Httpd.C15_short_body_partial
#print axioms Httpd.C150_order_partial
#print axioms Httpd.C150_set_back_violated
#print axioms Httpd.C151_thread_partial
#print axioms Httpd.C151_race_violated
#print axioms Httpd.C152_names
#print axioms Httpd.C152_date
#print axioms Httpd.C153_accepted_violated
#print axioms Httpd.C153_usable_partial
#print axioms Httpd.C154_ignored_violated
#print axioms Httpd.C154_root_partial
#print axioms Httpd.C155_default_partial
#print axioms Httpd.C155_quote_violated
#print axioms Httpd.C155_exactly_partial
#print axioms Httpd.C156_hangs_violated
#print axioms Httpd.C156_status_partial
#print axioms Httpd.C157_zero_violated
#print axioms Httpd.C157_per_core_partial
#print axioms Httpd.C157_all_ended_partial
#print axioms Httpd.C158_reported_partial
#print axioms Httpd.C158_anonymous_violated
#print axioms Httpd.C159_argv_violated
#print axioms Httpd.C159_release_partial
#print axioms Httpd.C159_debug_violated
#print axioms Httpd.C16_content_length
#print axioms Httpd.C16_bad_length_refused
#print axioms Httpd.C160_again
#print axioms Httpd.C160_when_due
#print axioms Httpd.C160_reported
#print axioms Httpd.C161_only_records
#print axioms Httpd.C161_rotating
#print axioms Httpd.C162_recovers_partial
#print axioms Httpd.C162_torn_violated
#print axioms Httpd.C163_accept
#print axioms Httpd.C164_switch_partial
#print axioms Httpd.C164_dropped_violated
#print axioms Httpd.C164_only_with_key_partial
#print axioms Httpd.C165_accepted
#print axioms Httpd.C165_services
#print axioms Httpd.C166_received_partial
#print axioms Httpd.C166_headers_violated
#print axioms Httpd.C166_requests_violated
#print axioms Httpd.C166_no_bound_violated
#print axioms Httpd.C167_persists_partial
#print axioms Httpd.C167_close_violated
#print axioms Httpd.C168_content_violated
#print axioms Httpd.C168_same_partial
#print axioms Httpd.C169_both_wait_violated
#print axioms Httpd.C169_sent_partial
#print axioms Httpd.C17_conflicting_violated
#print axioms Httpd.C17_first_decides_partial
#print axioms Httpd.C170_accepted
#print axioms Httpd.C170_waits
#print axioms Httpd.C170_spins
#print axioms Httpd.C170_refused
#print axioms Httpd.C170_request
#print axioms Httpd.C170_unambiguous
#print axioms Httpd.C171_file_partial
#print axioms Httpd.C171_connection_partial
#print axioms Httpd.C171_request_line_violated
#print axioms Httpd.C172_loss
#print axioms Httpd.C172_per_day
#print axioms Httpd.C173_files
#print axioms Httpd.C173_connection
#print axioms Httpd.C174_order
#print axioms Httpd.C174_dead_violated
#print axioms Httpd.C174_quiet_partial
#print axioms Httpd.C174_level_partial
#print axioms Httpd.C175_first_violated
#print axioms Httpd.C175_request_violated
#print axioms Httpd.C175_defined_partial
#print axioms Httpd.C176_hangs_violated
#print axioms Httpd.C176_ends_partial
#print axioms Httpd.C177_midnight_violated
#print axioms Httpd.C177_layout_violated
#print axioms Httpd.C177_silence_violated
#print axioms Httpd.C177_quiet_partial
#print axioms Httpd.C178_backlog_violated
#print axioms Httpd.C178_no_bound_violated
#print axioms Httpd.C178_conserved_partial
#print axioms Httpd.C179_quadratic_violated
#print axioms Httpd.C179_no_factor_violated
#print axioms Httpd.C179_bound_partial
#print axioms Httpd.C18_body_limit_violated
#print axioms Httpd.C18_as_announced_partial
#print axioms Httpd.C180_shut_out_violated
#print axioms Httpd.C180_fair_partial
#print axioms Httpd.C180_tls_violated
#print axioms Httpd.C181_spins_violated
#print axioms Httpd.C181_harmless_partial
#print axioms Httpd.C182_plus_violated
#print axioms Httpd.C182_digits_partial
#print axioms Httpd.C183_smuggling_violated
#print axioms Httpd.C183_length_counts_partial
#print axioms Httpd.C184_agree_partial
#print axioms Httpd.C184_disagree_violated
#print axioms Httpd.C185_case_violated
#print axioms Httpd.C185_substring_violated
#print axioms Httpd.C185_lower_partial
#print axioms Httpd.C186_json_partial
#print axioms Httpd.C186_plain_partial
#print axioms Httpd.C186_forged_violated
#print axioms Httpd.C187_ends_violated
#print axioms Httpd.C187_goes_on_partial
#print axioms Httpd.C188_bounded_wait
#print axioms Httpd.C188_served
#print axioms Httpd.C189_console
#print axioms Httpd.C189_connection
#print axioms Httpd.C189_default
#print axioms Httpd.C19_limited_reader
#print axioms Httpd.C19_halves
#print axioms Httpd.C19_whatever_happens
#print axioms Httpd.C190_hangs_violated
#print axioms Httpd.C190_taken_down_violated
#print axioms Httpd.C190_ends_partial
#print axioms Httpd.C191_same_bytes
#print axioms Httpd.C191_chunks
#print axioms Httpd.C192_expands_violated
#print axioms Httpd.C192_corrupt_violated
#print axioms Httpd.C192_received_partial
#print axioms Httpd.C193_files
#print axioms Httpd.C193_connection
#print axioms Httpd.C194_broken_pipe_violated
#print axioms Httpd.C194_announced_partial
#print axioms Httpd.C195_todo_violated
#print axioms Httpd.C195_line_partial
#print axioms Httpd.C196_round_trip
#print axioms Httpd.C196_covers_whole
#print axioms Httpd.C196_no_silent_loss
#print axioms Httpd.C196_every_body
#print axioms Httpd.C197_process
#print axioms Httpd.C197_refused
#print axioms Httpd.C198_nul_violated
#print axioms Httpd.C198_threads_partial
#print axioms Httpd.C198_broken_pipe_violated
#print axioms Httpd.C199_reset_violated
#print axioms Httpd.C199_polite_partial
#print axioms Httpd.C199_in_order
#print axioms Httpd.C20_only_empty_partial
#print axioms Httpd.C20_first_chunk_only_violated
#print axioms Httpd.C20_hex_refused_violated
#print axioms Httpd.C20_hex_misread_violated
#print axioms Httpd.C20_empty_partial
#print axioms Httpd.C200_determined
#print axioms Httpd.C201_determined
#print axioms Httpd.C201_found
#print axioms Httpd.C201_hello
#print axioms Httpd.C201_fs
#print axioms Httpd.C202_chance_violated
#print axioms Httpd.C202_split_violated
#print axioms Httpd.C202_apart_partial
#print axioms Httpd.C202_no_wait_partial
#print axioms Httpd.C203_names_partial
#print axioms Httpd.C203_set_violated
#print axioms Httpd.C203_remove_violated
#print axioms Httpd.C203_values_partial
#print axioms Httpd.C203_head_partial
#print axioms Httpd.C204_one_day_partial
#print axioms Httpd.C204_restart_violated
#print axioms Httpd.C204_trigger_violated
#print axioms Httpd.C205_exact
#print axioms Httpd.C205_connection
#print axioms Httpd.C205_request
#print axioms Httpd.C206_grammar
#print axioms Httpd.C206_as_if_alone
#print axioms Httpd.C206_others_left_out
#print axioms Httpd.C206_any_order
#print axioms Httpd.C206_turns
#print axioms Httpd.C206_finishes
#print axioms Httpd.C206_hello
#print axioms Httpd.C207_debug_partial
#print axioms Httpd.C207_release_violated
#print axioms Httpd.C207_root_violated
#print axioms Httpd.C208_all_at_once
#print axioms Httpd.C209_local
#print axioms Httpd.C209_round_trip
#print axioms Httpd.C209_ahead
#print axioms Httpd.C209_ends
#print axioms Httpd.C209_refused
#print axioms Httpd.C21_no_space_partial
#print axioms Httpd.C21_chunked_ignored_violated
#print axioms Httpd.C21_smuggling_violated
#print axioms Httpd.C210_says
#print axioms Httpd.C210_reason
#print axioms Httpd.C210_all
#print axioms Httpd.C210_line
#print axioms Httpd.C211_never_waits
#print axioms Httpd.C211_flush_returns
#print axioms Httpd.C211_files
#print axioms Httpd.C211_records
#print axioms Httpd.C211_command_line
#print axioms Httpd.C212_so_far
#print axioms Httpd.C212_in_the_end
#print axioms Httpd.C212_every_order
#print axioms Httpd.C213_cut_off
#print axioms Httpd.C213_others
#print axioms Httpd.C213_quiet
#print axioms Httpd.C213_info
#print axioms Httpd.C214_reported_partial
#print axioms Httpd.C214_silent_violated
#print axioms Httpd.C214_race_violated
#print axioms Httpd.C215_flushed_partial
#print axioms Httpd.C215_lost_violated
#print axioms Httpd.C216_command_line_partial
#print axioms Httpd.C216_says_partial
#print axioms Httpd.C216_in_time_partial
#print axioms Httpd.C216_late_violated
#print axioms Httpd.C216_refused_violated
#print axioms Httpd.C217_flushed_partial
#print axioms Httpd.C217_lost_violated
#print axioms Httpd.C218_enough_partial
#print axioms Httpd.C218_turn_partial
#print axioms Httpd.C218_endless_violated
#print axioms Httpd.C218_workers_partial
#print axioms Httpd.C218_frozen_violated
#print axioms Httpd.C219_exactly_partial
#print axioms Httpd.C219_ends_partial
#print axioms Httpd.C219_kept_violated
#print axioms Httpd.C22_responses_in_order
#print axioms Httpd.C22_unfinished_sends_nothing
#print axioms Httpd.C220_possible_all
#print axioms Httpd.C220_eventually
#print axioms Httpd.C220_hello
#print axioms Httpd.C220_command_line
#print axioms Httpd.C220_possible
#print axioms Httpd.Log.C221_written
#print axioms Httpd.Log.C221_flush
#print axioms Httpd.Log.C221_drop
#print axioms Httpd.Log.C221_possible
#print axioms Httpd.C221_live
#print axioms Httpd.C221_command_line
#print axioms Httpd.C221_live_possible
#print axioms Httpd.Log.C222_lag_partial
#print axioms Httpd.C222_kept_back_violated
#print axioms Httpd.C222_command_line_partial
#print axioms Httpd.C223_everybody
#print axioms Httpd.C223_grammar
#print axioms Httpd.C223_possible
#print axioms Httpd.C223_bound
#print axioms Httpd.C223_command_line
#print axioms Httpd.C224_command_line
#print axioms Httpd.C224_everybody
#print axioms Httpd.C224_grammar
#print axioms Httpd.C224_possible
#print axioms Httpd.C224_bound
#print axioms Httpd.C225_progress_partial
#print axioms Httpd.C225_strong_partial
#print axioms Httpd.C225_finite_partial
#print axioms Httpd.C225_starved_violated
#print axioms Httpd.C225_possible
#print axioms Httpd.C226_says
#print axioms Httpd.C226_status
#print axioms Httpd.C226_in_the_end
#print axioms Httpd.C226_command_line
#print axioms Httpd.C227_as_if_alone
#print axioms Httpd.C227_others_left_out
#print axioms Httpd.C227_eventually
#print axioms Httpd.C227_hello
#print axioms Httpd.C227_command_line
#print axioms Httpd.C227_possible
#print axioms Httpd.C228_goes_on_partial
#print axioms Httpd.C228_unheard_violated
#print axioms Httpd.C228_exactly_partial
#print axioms Httpd.C228_one_each_partial
#print axioms Httpd.C228_silent_partial
#print axioms Httpd.C228_as_before_partial
#print axioms Httpd.C228_spreads_violated
#print axioms Httpd.Log.C229_order
#print axioms Httpd.Log.C229_returns
#print axioms Httpd.C23_pipelined
#print axioms Httpd.C23_prefix
#print axioms Httpd.C230_round_trip
#print axioms Httpd.C231_silent_violated
#print axioms Httpd.C231_reported_partial
#print axioms Httpd.C232_high_violated
#print axioms Httpd.C232_level_partial
#print axioms Httpd.C233_answers
#print axioms Httpd.C233_pipelined
#print axioms Httpd.C233_records
#print axioms Httpd.C234_goodbye_violated
#print axioms Httpd.C234_cut_partial
#print axioms Httpd.C235_bounded
#print axioms Httpd.C236_beginning
#print axioms Httpd.C236_requests
#print axioms Httpd.C236_forged
#print axioms Httpd.C237_arrives
#print axioms Httpd.C237_same
#print axioms Httpd.C238_both
#print axioms Httpd.C238_calm
#print axioms Httpd.C239_one
#print axioms Httpd.C239_runs
#print axioms Httpd.C239_help
#print axioms Httpd.C239_refused
#print axioms Httpd.C24_body_exactly_partial
#print axioms Httpd.C24_heads_partial
#print axioms Httpd.C24_bodies_accumulate_violated
#print axioms Httpd.C24_responses_accumulate_violated
#print axioms Httpd.C24_first_body_partial
#print axioms Httpd.C240_shown
#print axioms Httpd.C240_default
#print axioms Httpd.C240_told
#print axioms Httpd.C241_shown_partial
#print axioms Httpd.C241_forged_violated
#print axioms Httpd.C242_only
#print axioms Httpd.C242_exactly
#print axioms Httpd.C242_tls
#print axioms Httpd.C243_decrypted
#print axioms Httpd.C244_versions
#print axioms Httpd.C244_all
#print axioms Httpd.C25_refused
#print axioms Httpd.C25_refused_after
#print axioms Httpd.C26_stops
#print axioms Httpd.C27_self_delimiting_partial
#print axioms Httpd.C27_exactly_partial
#print axioms Httpd.C27_after_delete_violated
#print axioms Httpd.C27_case_violated
#print axioms Httpd.C28_round_trip
#print axioms Httpd.C29_lines_partial
#print axioms Httpd.C29_injected_line_violated
#print axioms Httpd.C29_split_response_violated
#print axioms Httpd.C30_never_valid_violated
#print axioms Httpd.C30_on_the_wire_violated
#print axioms Httpd.C30_first_partial
#print axioms Httpd.C31_http10_violated
#print axioms Httpd.C31_close_exact_partial
#print axioms Httpd.C32_delimited_partial
#print axioms Httpd.C32_status_line_violated
#print axioms Httpd.C33_minor_violated
#print axioms Httpd.C33_garbage_violated
#print axioms Httpd.C33_major_partial
#print axioms Httpd.C34_tells_apart_partial
#print axioms Httpd.C34_over_tls_violated
#print axioms Httpd.C35_tls_never_dropped
#print axioms Httpd.C36_multimap_refines
#print axioms Httpd.C37_set_again_violated
#print axioms Httpd.C37_append_again_partial
#print axioms Httpd.C37_append_later_violated
#print axioms Httpd.C37_append_earlier_partial
#print axioms Httpd.C37_delete_partial
#print axioms Httpd.C37_delete_mapmode_partial
#print axioms Httpd.C37_delete_violated
#print axioms Httpd.C37_append_after_delete_violated
#print axioms Httpd.C38_remove_exact
#print axioms Httpd.C39_clear_fresh
#print axioms Httpd.C40_each_len
#print axioms Httpd.C41_multimap_no_panic
#print axioms Httpd.C42_upgrade
#print axioms Httpd.C43_no_key_partial
#print axioms Httpd.C43_no_upgrade_header_violated
#print axioms Httpd.C44_round_trip
#print axioms Httpd.C44_from_network
#print axioms Httpd.C45_short_write_violated
#print axioms Httpd.C45_offered_partial
#print axioms Httpd.C46_body_kept_violated
#print axioms Httpd.C46_compressed_kept_violated
#print axioms Httpd.C46_clear_partial
#print axioms Httpd.C47_clear_does_not_repair_violated
#print axioms Httpd.C47_modes_partial
#print axioms Httpd.C47_unbroken_partial
#print axioms Httpd.C48_gigabytes_violated
#print axioms Httpd.C48_below_g_partial
#print axioms Httpd.C49_durations
#print axioms Httpd.C50_leading_unit_violated
#print axioms Httpd.C50_wrap_violated
#print axioms Httpd.C50_values_partial
#print axioms Httpd.C51_split_lossless
#print axioms Httpd.C52_tcp
#print axioms Httpd.C52_services
#print axioms Httpd.C53_http
#print axioms Httpd.C53_services
#print axioms Httpd.C54_not_inherited_violated
#print axioms Httpd.C54_inherited_partial
#print axioms Httpd.C54_services_partial
#print axioms Httpd.C54_services_violated
#print axioms Httpd.C55_idempotent
#print axioms Httpd.C55_services
#print axioms Httpd.C56_identities
#print axioms Httpd.C57_white_space_violated
#print axioms Httpd.C57_unique_partial
#print axioms Httpd.C58_include
#print axioms Httpd.C58_exactly
#print axioms Httpd.C59_namewithoutext
#print axioms Httpd.C60_paths
#print axioms Httpd.C61_delivered_partial
#print axioms Httpd.C61_undefined_violated
#print axioms Httpd.C62_rendering_partial
#print axioms Httpd.C62_undefined_violated
#print axioms Httpd.C63_appenders
#print axioms Httpd.C63_filters
#print axioms Httpd.C64_setup
#print axioms Httpd.C65_disabled_violated
#print axioms Httpd.C65_some_left_partial
#print axioms Httpd.Log.C66_order
#print axioms Httpd.Log.C67_barrier
#print axioms Httpd.Log.C68_lost_violated
#print axioms Httpd.Log.C68_early_violated
#print axioms Httpd.Log.C68_handed_partial
#print axioms Httpd.C69_content
#print axioms Httpd.C70_lost_violated
#print axioms Httpd.C70_replaced_violated
#print axioms Httpd.C70_kept_partial
#print axioms Httpd.C71_once_partial
#print axioms Httpd.C71_twice_violated
#print axioms Httpd.C71_flushes_partial
#print axioms Httpd.C72_plain_partial
#print axioms Httpd.C72_message_violated
#print axioms Httpd.C72_keys_violated
#print axioms Httpd.C72_forged_violated
#print axioms Httpd.C73_color
#print axioms Httpd.C74_pairs
#print axioms Httpd.C74_text
#print axioms Httpd.C75_race_violated
#print axioms Httpd.C75_livelock_violated
#print axioms Httpd.C75_waits_partial
#print axioms Httpd.C76_all_services
#print axioms Httpd.C77_finitely_many
#print axioms Httpd.C78_hello_transcript
#print axioms Httpd.C79_fs_transcript
#print axioms Httpd.C80_body_modes
#print axioms Httpd.C81_accepts_all
#print axioms Httpd.C82_size_value
#print axioms Httpd.C83_sizes_exactly
#print axioms Httpd.C83_durations_exactly
#print axioms Httpd.C84_nothing_else
#print axioms Httpd.C85_same_file_violated
#print axioms Httpd.C85_different_partial
#print axioms Httpd.C85_exactly_partial
#print axioms Httpd.C86_load
#print axioms Httpd.C86_exactly
#print axioms Httpd.C86_contents
#print axioms Httpd.C87_accepted_iff
#print axioms Httpd.C88_noted
#print axioms Httpd.C89_starts_partial
#print axioms Httpd.C89_panics_violated
#print axioms Httpd.C90_hello_log_partial
#print axioms Httpd.C90_request_line_violated
#print axioms Httpd.C90_root_violated
#print axioms Httpd.C90_hello_partial
#print axioms Httpd.C91_no_file_violated
#print axioms Httpd.Log.C92_ends
#print axioms Httpd.Log.C93_spreads_violated
#print axioms Httpd.Log.C93_quiet_partial
#print axioms Httpd.Log.C93_waits_violated
#print axioms Httpd.Log.C94_in_file
#print axioms Httpd.C95_names
#print axioms Httpd.C95_rounds
#print axioms Httpd.C96_rotates_partial
#print axioms Httpd.C96_late_violated
#print axioms Httpd.C96_panic_violated
#print axioms Httpd.C97_misdated_violated
#print axioms Httpd.C98_online
#print axioms Httpd.C99_answers_at_once

#!/usr/bin/env python3
"""Try one wrong program: edit a definition of the model in a scratch copy, rebuild, and see which theorems no longer hold.

usage: seed.py SPEC.json   with keys id, definition, file, old, new, edit, claim, and more: a list of further edits (file, old, new)

Declarations whose proof fails are replaced by `sorry` in the scratch copy and the build goes on, so that at the end every theorem
either still has a proof or depends on one that failed.  Prints a JSON object with the declarations that failed directly and the
property theorems that do not hold any more.

With SEED_FAST=1 the build is stopped as soon as the proof of a property theorem fails; then only the ones seen until then are listed.
With SEED_PRISTINE=DIR the compiled files of the unchanged model are taken from DIR first.
"""
import json, os, re, signal, subprocess, sys, time

SRC, DST = os.environ.get('SEED_SRC', '/verif/lean'), '/tmp/seed/lean'
KW = re.compile(r'^(?:@\[[^\]]*\]\s*)?(?:private |protected |noncomputable |scoped )*(theorem|lemma|def|instance|abbrev|structure|inductive|class|example|open|end|namespace|section|variable|omit|set_option|/-|#)')


def sh(cmd, **kw):
    return subprocess.run(cmd, shell=True, capture_output=True, text=True, **kw)


def lake(cwd):
    """Build; with SEED_FAST stop at the first property theorem that fails."""
    p = subprocess.Popen('lake build Verif', shell=True, cwd=cwd, stdout=subprocess.PIPE, stderr=subprocess.STDOUT, text=True, start_new_session=True)
    out, hit = [], []
    for line in p.stdout:
        out.append(line)
        m = re.match(r'error: (Verif/\S+?\.lean):(\d+):\d+', line)
        if m and os.environ.get('SEED_FAST'):
            lines = open(os.path.join(cwd, m.group(1))).read().split('\n')
            i, _ = decl_range(lines, int(m.group(2)))
            n = re.match(r'theorem (C\d{2,3}_\S+)', lines[i])
            if n and n.group(1) not in hit:
                hit.append(n.group(1))
        elif hit and not m and re.match(r'^[✔✖⚠ℹ]', line):
            # the errors of this module are all there
            os.killpg(p.pid, signal.SIGKILL)
            break
    p.wait()
    return p.returncode, ''.join(out), hit


def decl_range(lines, n):
    """The declaration around line n (1-based): first and last index (exclusive)."""
    i = n - 1
    while i >= 0 and not re.match(r'^(?:@\[[^\]]*\]\s*)?(?:private |protected |noncomputable |scoped )*(theorem|lemma|def|instance|abbrev|example)\b', lines[i]):
        i -= 1
    j = i + 1
    while j < len(lines) and not (lines[j].strip() and not lines[j][0].isspace()):
        j += 1
    return i, j


def cut(text):
    """The statement, without the proof: up to the first `:=` or `where` outside brackets."""
    depth = 0
    k = 0
    while k < len(text):
        c = text[k]
        if c in '([{⟨':
            depth += 1
        elif c in ')]}⟩':
            depth -= 1
        elif depth == 0 and text.startswith(':=', k) and not re.search(r'\blet\s+\S+\s*$', text[:k]):
            return text[:k]
        elif depth == 0 and text.startswith(' where', k) and text[k + 6:k + 7] in ('\n', ' '):
            return text[:k]
        elif depth == 0 and text.startswith('\n  | ', k):
            return text[:k]
        k += 1
    return None


def main():
    spec = json.load(open(sys.argv[1]))
    sh(f'rm -rf {DST}/Verif && cp -r {SRC}/Verif {SRC}/Verif.lean {DST}/')
    if os.environ.get('SEED_PRISTINE'):
        sh(f"rm -rf {DST}/.lake && cp -r {os.environ['SEED_PRISTINE']} {DST}/.lake")
    for e in [spec] + spec.get('more', []):
        p = os.path.join(DST, e['file'])
        s = open(p).read()
        assert s.count(e['old']) == 1, ('edit does not apply', spec['id'], s.count(e['old']))
        open(p, 'w').write(s.replace(e['old'], e['new']))
    failed, gone, note = [], [], ''
    t0 = time.time()
    for it in range(60):
        code, out, hit = lake(DST)
        errs = sorted(set((f, int(l)) for f, l in re.findall(r'error: (Verif/\S+?\.lean):(\d+):\d+', out)))
        if code == 0:
            break
        if hit:
            note += ' stopped at the first property theorems that fail'
            break
        if not errs:
            # an example that is false now may make the prover run out of memory: drop the examples of that file and go on
            stopped = [f for f in re.findall(r'- (Verif\.\S+)', out)]
            dropped = False
            for m in stopped:
                path = os.path.join(DST, m.replace('.', '/') + '.lean')
                lines = open(path).read().split('\n')
                k = len(lines) - 1
                while k >= 0:
                    if lines[k].startswith('example'):
                        i, j = decl_range(lines, k + 1)
                        lines[i:j] = ['']
                        dropped = True
                    k -= 1
                if dropped:
                    text = re.sub(r'/--(?:(?!-/)[\s\S])*-/\s*\n(?=\s*(?:/--|end|namespace|section|open|/-!|\Z))', '', '\n'.join(lines))
                    open(path, 'w').write(text)
                    failed.append(m[6:] + ':examples')
            if dropped:
                continue
            note = 'build stopped: ' + out[-400:]
            break
        byfile = {}
        for f, l in errs:
            byfile.setdefault(f, []).append(l)
        changed = False
        for f, ls in byfile.items():
            path = os.path.join(DST, f)
            lines = open(path).read().split('\n')
            for i, j in sorted(set(decl_range(lines, l) for l in ls), reverse=True):
                if i < 0:
                    continue
                text = '\n'.join(lines[i:j])
                head = cut(text)
                name = re.search(r'(?:theorem|lemma|def|instance|abbrev|example)\s+(\S+)', text)
                name = name.group(1) if name else f'{f}:{i}'
                if text.startswith('example'):
                    failed.append(f[6:-5].replace('/', '.') + ':example')
                    k = i
                    if k > 0 and lines[k - 1].rstrip().endswith('-/'):
                        while k > 0 and not lines[k - 1].lstrip().startswith('/--'):
                            k -= 1
                        k -= 1
                    lines[k:j] = ['']
                    changed = True
                    continue
                if head is None:
                    note += f' cannot drop {name}'
                    continue
                if text[len(head):].strip() == ':= sorry':
                    # not even the statement makes sense any more
                    gone.append(name)
                    k = i
                    while k > 0 and re.match(r'^(omit |include |set_option |@\[)', lines[k - 1]):
                        k -= 1
                    if k > 0 and lines[k - 1].rstrip().endswith('-/'):
                        while k > 0 and not lines[k - 1].lstrip().startswith('/--'):
                            k -= 1
                        k -= 1
                    lines[k:j] = ['']
                    changed = True
                    continue
                if re.match(r'^(noncomputable )?(def|abbrev)', text):
                    note += f' definition {name} does not compile'
                failed.append(f[6:-5].replace('/', '.') + ':' + name)
                lines[i:j] = (head + ':= sorry').split('\n') + ['']
                changed = True
            open(path, 'w').write('\n'.join(lines))
        if not changed:
            note += ' stuck: ' + out[-600:]
            break
    bad, good = list(hit), []
    failed += [n for n in hit]
    if code == 0:
        q = '''import Verif
import Lean.Util.CollectAxioms
open Lean Elab Command
run_cmd do
  let env ← getEnv
  for (n, c) in env.constants.map₁.toList do
    if c matches .thmInfo _ then
      if (`Verif.Props).isPrefixOf n then
        if let .str _ s := n then
          if s.startsWith "C" && (s.drop 1).startsWith "0" || s.startsWith "C" && ((s.drop 1).take 1).toString.isNat then
            let ax ← liftCoreM (collectAxioms n)
            logInfo m!"THM {n} {ax.contains ``sorryAx}"
'''
        open('/tmp/seed/q.lean', 'w').write(q)
        r = sh('lake env lean /tmp/seed/q.lean', cwd=DST)
        for n, b in re.findall(r'THM (\S+) (true|false)', r.stdout):
            n = n.replace('Verif.Props.', '')
            (bad if b == 'true' else good).append(n)
        bad += [n for n in gone if re.match(r'C\d{2,3}_', n)]
        if not bad and not good:
            note += ' query: ' + (r.stdout + r.stderr)[-500:]
    print(json.dumps({'id': spec['id'], 'failed': failed, 'bad': sorted(bad), 'n_good': len(good), 'note': note, 'iterations': it + 1, 'seconds': round(time.time() - t0)}))


main()

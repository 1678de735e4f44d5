.lake/
build/
__pycache__/
*.pyc
